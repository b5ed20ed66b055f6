{"id": "C01", "title": "brent returns a point of [a,b] next to a sign change", "statement": "If brent(f,a,b,t) is called with a<=b and f(a)*f(b)<=0 and returns r, then a<=r<=b and either f(r)=0 or some c in [a,b] with |c-r| <= 2*(2*eps*|r|+t) has f(c) of the opposite sign to f(r). For continuous f an exact root lies within 2*(2*eps*|r|+t) of r.", "quantifier": "every function f finite on [a,b] (not only smooth ones), every a<=b, every eps,t>=0", "why_tests_cant": "the interpolation/bisection schedule depends on f; tests try a handful of smooth functions", "anchors": ["neutralocean/fzero.py: brent"]}
{"id": "C02", "title": "brent always terminates", "statement": "With t>0, brent stops after at most about 2*(b-a)/t + 2 passes of its loop, whatever f is.", "quantifier": "every f, a<=b, t>0", "why_tests_cant": "non-termination is a property of all executions; adversarial f can force tiny steps", "anchors": ["neutralocean/fzero.py: brent"]}
{"id": "C03", "title": "brent gives NaN exactly on bad input and never divides by zero", "statement": "brent returns NaN if and only if a bound is NaN, a>b, or f(a)*f(b)>0; on every other input it returns a finite number, and none of its divisions has a zero divisor.", "quantifier": "every f finite on [a,b], every pair of bounds including NaN", "why_tests_cant": "the divisors depend on the whole history of iterates", "anchors": ["neutralocean/fzero.py: brent"]}
{"id": "C04", "title": "guess_to_bounds returns a bracketing sub-interval", "statement": "When guess_to_bounds(f,x,A,B) returns (a,b) that is not NaN, A<=a<=b<=B, and either f(a)*f(b)<=0 with exactly one of f(a),f(b) positive, or a=b is an end of the range where f is zero; so brent never rejects the interval.", "quantifier": "every f, every guess x (inside or outside [A,B]), every A<=B", "why_tests_cant": "the probing sequence depends on f at many points", "anchors": ["neutralocean/fzero.py: guess_to_bounds, brent_guess"]}
{"id": "C05", "title": "guess_to_bounds misses no end-to-end sign change and always stops", "statement": "guess_to_bounds returns NaN only if f(A) and f(B) are nonzero and of the same sign; it always stops, after a bounded number (14) of loop passes independent of f, x, A, B.", "quantifier": "every f, x, A<=B", "why_tests_cant": "must hold for all functions and ranges", "anchors": ["neutralocean/fzero.py: guess_to_bounds"]}
{"id": "C06", "title": "brent_guess finds a root whenever the end values differ in sign", "statement": "If f is continuous on [A,B] and f(A)*f(B)<=0 then brent_guess(f,x,A,B,t) returns r in [A,B] with an exact root of f within 2*(2*eps*|r|+t) of r. It returns NaN only if f(A)*f(B)>0.", "quantifier": "every continuous f, every guess x, every A<=B, t>0", "why_tests_cant": "for-all over functions", "anchors": ["neutralocean/fzero.py: brent_guess"]}
{"id": "C07", "title": "root accuracy is tol_p (documented)", "statement": "ntp_bottle_to_cast documents that within tol_p of the returned point there is a point where the two densities are exactly equal.", "quantifier": "every bottle, cast and tolerance", "why_tests_cant": "tests compare with a looser bound and on smooth profiles", "anchors": ["neutralocean/traj.py: ntp_bottle_to_cast", "neutralocean/fzero.py: brent"]}
{"id": "C08", "title": "valid_range finds the first contiguous block of data", "statement": "valid_range_1(X) returns k<=K<=len(X) with no finite entry before k, X[k] finite if k<len, no NaN in X[k:K], and K=len(X) or X[K] NaN; these conditions determine k,K. valid_range_1_two(X,Y) does this for the pair.", "quantifier": "every array, of every length, with any mix of finite, NaN and infinite entries", "why_tests_cant": "arbitrary lengths and NaN layouts", "anchors": ["neutralocean/ppinterp/lib.py: valid_range_1, valid_range_1_two"]}
{"id": "C09", "title": "interpolation is NaN exactly outside the data range and never indexes out of range", "statement": "ppval_1 / ppinterp_1 on increasing X return NaN if x is NaN, x is outside [X[k],X[K-1]] or there are fewer than two valid points, and otherwise use the piece i with k<=i<=K-2 and X[i]<=x<=X[i+1].", "quantifier": "every increasing X with any NaN padding, every x", "why_tests_cant": "binary search behaviour on all arrays and all x including knots", "anchors": ["neutralocean/ppinterp/ppinterp.py: ppval_1, ppinterp_1, ppval_1_nonan"]}
{"id": "C10", "title": "interpolants pass through the data", "statement": "Linear and PCHIP interpolants evaluated at any valid data site X[j] return exactly Y[j] (exact arithmetic), including the first and last site.", "quantifier": "every strictly increasing X (any NaN padding, at least two valid sites), every Y, every j", "why_tests_cant": "for-all over data, lengths", "anchors": ["neutralocean/ppinterp/linear.py", "neutralocean/ppinterp/pchip.py", "neutralocean/ppinterp/ppinterp.py: ppval_1"]}
{"id": "C11", "title": "linear interpolation is the chord", "statement": "Between neighbouring sites linear_interp_1 equals Y[i]+(x-X[i])*(Y[i+1]-Y[i])/(X[i+1]-X[i]); hence it lies between Y[i] and Y[i+1] and its first derivative output is the chord slope.", "quantifier": "every strictly increasing X, every Y, every x in range", "why_tests_cant": "for-all over data", "anchors": ["neutralocean/ppinterp/linear.py: linear_coeffs_1, linear_interp_1"]}
{"id": "C12", "title": "PCHIP preserves shape", "statement": "On each interval between neighbouring sites the PCHIP interpolant is monotone in the direction of the data and stays between Y[i] and Y[i+1]: no overshoot.", "quantifier": "every strictly increasing X of length at least 2, every Y, every x in range", "why_tests_cant": "shape preservation is an inequality over all data", "anchors": ["neutralocean/ppinterp/pchip.py: _pchip_coeffs_1"]}
{"id": "C13", "title": "PCHIP is continuously differentiable", "statement": "At each interior site the pieces on the left and right have the same value and the same first derivative.", "quantifier": "every strictly increasing X, every Y, every interior site", "why_tests_cant": "for-all over data", "anchors": ["neutralocean/ppinterp/pchip.py: _pchip_coeffs_1"]}
{"id": "C14", "title": "on-the-fly interpolation equals precomputed coefficients, bit for bit", "statement": "ppinterp_1 with the per-interval coefficient function gives the same result as ppval_1 on the precomputed coefficients, for linear and PCHIP, in any arithmetic in which + is commutative (hence also in IEEE doubles), provided non-finite entries of X,Y are NaN.", "quantifier": "every arithmetic with commutative addition, every X,Y, every x, every derivative order", "why_tests_cant": "tests compare on one data set; bit equality must hold for all inputs and any rounding", "anchors": ["neutralocean/ppinterp/pchip.py: _pchip_coeffs_1, _pchip_coeffs_i", "neutralocean/ppinterp/linear.py", "neutralocean/ppinterp/ppinterp.py"]}
{"id": "C15", "title": "paired and NaN-free variants agree with the general ones", "statement": "ppval_1_two and ppinterp_1_two return the pair of single results when the second variable has the NaN structure of the first; ppval_1_nonan(_two) and pchip_coeffs_1_nonan agree with the general functions on NaN-free data of length at least two.", "quantifier": "every arithmetic, all data", "why_tests_cant": "for-all over data", "anchors": ["neutralocean/ppinterp/ppinterp.py: ppval_1_two, ppinterp_1_two, ppval_1_nonan, ppval_1_nonan_two", "neutralocean/ppinterp/pchip.py: pchip_coeffs_1_nonan"]}
{"id": "C16", "title": "pval(d) is the d-th derivative", "statement": "pval(x,C,d) equals the d-th derivative at x of the polynomial with coefficients C (highest power first), for every d, and 0 when d is at least the number of coefficients.", "quantifier": "every coefficient list, every d, every x", "why_tests_cant": "for-all over degree and d", "anchors": ["neutralocean/ppinterp/ppinterp.py: pval"]}
{"id": "C17", "title": "NaN padding does not matter", "statement": "Adding NaN entries before the first valid site or after the first valid block (and anything after such a NaN) does not change any interpolated value.", "quantifier": "all data, all paddings", "why_tests_cant": "for-all over data and padding", "anchors": ["neutralocean/ppinterp/ppinterp.py: ppval_1, ppinterp_1", "neutralocean/ppinterp/lib.py"]}
{"id": "C18", "title": "edges_to_csr lists exactly the neighbours", "statement": "For valid edges, indices[indptr[m]:indptr[m+1]] is, in edge order, the other end of every edge at node m; all writes are in range; n is listed for m as often as m for n.", "quantifier": "every edge list, every N exceeding the node numbers", "why_tests_cant": "counting-sort style in-place algorithm; for-all over graphs", "anchors": ["neutralocean/grid/graph.py: edges_to_csr"]}
{"id": "C19", "title": "rectilinear build_grid makes exactly the grid adjacencies", "statement": "The edges are exactly the pairs (i,j)-(i-1,j) and (i,j)-(i,j-1), wrapping only in periodic dimensions, each once; the edge count is the documented one.", "quantifier": "every grid size and both periodicity flags", "why_tests_cant": "tests check sizes of a few grids", "anchors": ["neutralocean/grid/rectilinear.py: _build_edges"]}
{"id": "C20", "title": "rectilinear edge data is aligned with edges and round-trips", "statement": "The distance listed for an edge is the input distance at the cell whose face it is; edgedata_to_maps applied to the built edge data returns the input maps with NaN exactly on the non-periodic boundary.", "quantifier": "every grid size, periodicity, data", "why_tests_cant": "index alignment for all sizes", "anchors": ["neutralocean/grid/rectilinear.py: _build_edgedata, edgedata_to_maps"]}
{"id": "C21", "title": "tripolar build_grid makes the ORCA adjacencies", "statement": "Edges are exactly (j,i)-(j-1,i), (j,i)-(j,i-1 mod ni) and the north fold (nj-1,i)-(nj-1,ni-1-i); edgedata_to_maps inverts the edge data layout.", "quantifier": "every nj, ni", "why_tests_cant": "index arithmetic for all sizes", "anchors": ["neutralocean/grid/tripolar.py: _build_edges, edgedata_to_maps"]}
{"id": "C22", "title": "tripolar accepts padded ORCA distance arrays (documented)", "statement": "build_grid documents that distances may be given with shape (nj+1, ni+2) and are trimmed.", "quantifier": "every nj, ni", "why_tests_cant": "no test passes padded data", "anchors": ["neutralocean/grid/tripolar.py: _build_edgedata"]}
{"id": "C23", "title": "xgcm build_grid associates i-distances with i-neighbours (documented)", "statement": "dxC is documented as the distance between neighbours in the i dimension; the edge to the i-neighbour should carry dxC and the edge to the j-neighbour dyC.", "quantifier": "every grid and distances", "why_tests_cant": "tests use ones or symmetric data", "anchors": ["neutralocean/grid/xgcm.py: build_grid"]}
{"id": "C24", "title": "divergence sums to zero; aggsum is a grouped sum", "statement": "aggsum(a,idx,N)[g] is the sum of a over entries with idx=g, and the area weighted sum over all nodes of divergence of any edge flux is 0.", "quantifier": "all fluxes, edges, sizes", "why_tests_cant": "for-all over graphs", "anchors": ["neutralocean/lib.py: aggsum", "neutralocean/grid/tools.py: divergence"]}
{"id": "C25", "title": "bfs_conncomp1 returns the connected component", "statement": "The returned list contains exactly the nodes reachable from the root through good nodes, each once, root first; it is empty if the root is not good; good is afterwards false exactly on the component and otherwise unchanged; the work queue never exceeds its length N.", "quantifier": "every graph in CSR form, root, mask", "why_tests_cant": "for-all over graphs; in-place mutation and fixed size queue", "anchors": ["neutralocean/bfs.py: bfs_conncomp1"]}
{"id": "C26", "title": "the search order is breadth first", "statement": "Nodes appear in the returned list in order of nondecreasing graph distance from the root.", "quantifier": "every graph, root, mask", "why_tests_cant": "for-all over graphs", "anchors": ["neutralocean/bfs.py: bfs_conncomp1"]}
{"id": "C27", "title": "bfs_conncomp1_wet keeps the existing surface and only adds links below the mixed layer", "statement": "After bfs_conncomp1_wet, s,t,p on casts that were wet are unchanged; newly_wet counts exactly the newly wet casts; each newly wet cast has p below the mixed layer of that cast and was reached by a neutral link from an adjacent cast of the list; the list has no duplicates, fits in N, and is contained in the reachable set.", "quantifier": "every graph, surface, casts, link outcome", "why_tests_cant": "interleaving of wetting and searching", "anchors": ["neutralocean/bfs.py: bfs_conncomp1_wet"]}
{"id": "C28", "title": "bfs_conncomp1_wet_perim: the two-ended queue never collides", "statement": "The BFS queue growing from the left and the perimeter queue growing from the right of one array of length N never overwrite each other, in any execution.", "quantifier": "every graph, surface, number of repetitions, link outcome", "why_tests_cant": "for-all over graphs; a collision would be silent corruption", "anchors": ["neutralocean/bfs.py: bfs_conncomp1_wet_perim"]}
{"id": "C29", "title": "bfs_conncomp1_wet_perim: component kept, rest removed, wetted casts added", "statement": "After the call p is unchanged on the root's component, NaN on casts that are neither in the component nor newly wetted; the newly wetted casts were not finite before; the returned number newly_wet is exactly the number of newly wetted casts; s and t change only on newly wetted casts, where they are the interpolants at the new p.", "quantifier": "every graph, surface, repetitions, link outcome", "why_tests_cant": "for-all over graphs and link outcomes", "anchors": ["neutralocean/bfs.py: bfs_conncomp1_wet_perim"]}
{"id": "C30", "title": "wetted perimeter casts lie below their own mixed layer (documented)", "statement": "Each cast wetted by bfs_conncomp1_wet_perim is documented to be connected by an NTP link landing below the mixed layer (p_ml) of that cast.", "quantifier": "every p_ml", "why_tests_cant": "tests use no or a uniform mixed layer", "anchors": ["neutralocean/bfs.py: bfs_conncomp1_wet_perim"]}
{"id": "C31", "title": "perimeter wetting is independent of neighbour order (documented)", "statement": "The docstring claims the output is not sensitive to the order in which neighbours are listed.", "quantifier": "every reordering of the adjacency lists", "why_tests_cant": "for-all over permutations", "anchors": ["neutralocean/bfs.py: bfs_conncomp1_wet_perim"]}
{"id": "C32", "title": "perimeter wetting with unlimited repetitions is exhaustive (documented)", "statement": "omega_surf documents that wetting is performed until no further NTP links are possible.", "quantifier": "every graph and link outcome", "why_tests_cant": "needs a special geometry where a failed cast becomes linkable later", "anchors": ["neutralocean/bfs.py: bfs_conncomp1_wet_perim", "neutralocean/surface/omega.py: omega_surf"]}
{"id": "C33", "title": "neutral tangent plane errors are antisymmetric and vanish for equal properties", "statement": "Reversing an edge negates its error; an edge between water parcels of equal s and t has error 0; the error is independent of all other edges.", "quantifier": "all data, all eos derivatives", "why_tests_cant": "for-all", "anchors": ["neutralocean/ntp.py: ntp_epsilon_errors, _ntp_epsilon_error1"]}
{"id": "C34", "title": "error norms are well behaved", "statement": "e_RMS and e_MAV are nonnegative, unchanged by reversing or reordering edges and by edges with NaN errors, (0,0) when no edge is valid, and e_MAV <= e_RMS for positive distances.", "quantifier": "all data with positive distances", "why_tests_cant": "inequality over all data", "anchors": ["neutralocean/ntp.py: ntp_epsilon_errors_norms"]}
{"id": "C35", "title": "missing dist defaults to 1 (documented)", "statement": "ntp_epsilon_errors_norms documents that dist and distperp default to 1.0 when absent from grid.", "quantifier": "every grid without distances", "why_tests_cant": "no test omits them", "anchors": ["neutralocean/ntp.py: ntp_epsilon_errors_norms"]}
{"id": "C36", "title": "ntp_bottle_to_cast finds the neutral point if the cast brackets it", "statement": "The returned p is NaN exactly when the cast has under two valid points or the density difference has the same strict sign at both ends of the cast without a sign change met by the search; otherwise p is inside the cast range, a point of exact neutrality lies within 2*(2*eps*|p|+tol_p), and s,t are the interpolants at p.", "quantifier": "every continuous eos, bottle, cast, interpolant", "why_tests_cant": "for-all over casts and eos", "anchors": ["neutralocean/traj.py: ntp_bottle_to_cast, _ntp_bottle_to_cast_ppc"]}
{"id": "C37", "title": "a neutral trajectory stops at the first failed link", "statement": "neutral_trajectory returns p[0]=p0, a prefix of finite values each linked to the previous one, and NaN in s,t,p after the first failed link; the first c entries depend only on the first c casts.", "quantifier": "every sequence of casts", "why_tests_cant": "for-all over histories", "anchors": ["neutralocean/traj.py: neutral_trajectory"]}
{"id": "C38", "title": "s,t,p of a neutral trajectory share NaN structure (expected)", "statement": "Where p is finite, s and t are finite.", "quantifier": "every start pressure p0, including out of range", "why_tests_cant": "tests start inside the cast", "anchors": ["neutralocean/traj.py: neutral_trajectory"]}
{"id": "C39", "title": "potential and anomaly surfaces meet their isovalue on every cast", "statement": "For every cast, independently of the others, the vertical solve returns NaN in s,t,p together, or p in the cast range with an exact solution of the isovalue equation within 2*(2*eps*|p|+tol_p), s and t being the interpolants at p; NaN happens only if the equation has same-sign residuals at both ends (or under two valid points).", "quantifier": "every cast, eos, isovalue, initial guess", "why_tests_cant": "for-all over casts", "anchors": ["neutralocean/surface/_vertsolve.py: _vertsolve", "neutralocean/surface/isopycnal.py: _isopycnal"]}
{"id": "C40", "title": "the omega vertical solve leaves the pinned cast alone and keeps one NaN structure", "statement": "_vertsolve_omega leaves s,t,p unchanged where the correction is exactly 0, makes s,t,p all NaN where it is NaN or the solve fails, and elsewhere moves the cast to a point of its data range solving the local equation.", "quantifier": "every correction field, every cast", "why_tests_cant": "for-all", "anchors": ["neutralocean/surface/_vertsolve.py: _vertsolve_omega"]}
{"id": "C41", "title": "omega surfaces stay pinned", "statement": "At return from omega_surf (and at the start of every iteration) the pressure, salinity and temperature at the pinning cast equal their initial values, whatever the number of iterations and the wetting.", "quantifier": "every number of iterations, every linear solver outcome with the reference correction subtracted", "why_tests_cant": "for-all over executions", "anchors": ["neutralocean/surface/omega.py: omega_surf, _omega_matsolve_poisson, _omega_matsolve_gradient"]}
{"id": "C42", "title": "omega iteration count", "statement": "omega_surf makes at least min(ITER_MIN,ITER_MAX) and at most ITER_MAX iterations and stops early only when the L2 correction is below tolerance.", "quantifier": "every run", "why_tests_cant": "for-all over convergence histories", "anchors": ["neutralocean/surface/omega.py: omega_surf"]}
{"id": "C43", "title": "diagnostics report every iteration (documented)", "statement": "The per-iteration diagnostics returned by omega_surf are documented to describe what each iteration did.", "quantifier": "every run", "why_tests_cant": "tests look only at e_RMS and e_MAV", "anchors": ["neutralocean/surface/omega.py: omega_surf"]}
{"id": "C44", "title": "the matrix solver always gets a nonempty region (documented)", "statement": "The code comments that N >= 1 is guaranteed by omega_surf.", "quantifier": "every mixed layer and pinning", "why_tests_cant": "needs a pinning point shallower than the mixed layer", "anchors": ["neutralocean/surface/omega.py: omega_surf, _omega_matsolve_helper"]}
{"id": "C45", "title": "the omega Poisson problem has exactly one solution and it is pinned", "statement": "With positive edge weights on a connected region, the pinned graph Laplacian is positive definite, so the system has exactly one solution for every right-hand side; for the right-hand side built from the errors that solution vanishes at the reference cast and satisfies the unpinned Poisson equation.", "quantifier": "every connected region, weights, errors", "why_tests_cant": "linear algebra over all graphs", "anchors": ["neutralocean/surface/omega.py: _omega_matsolve_poisson"]}
{"id": "C46", "title": "Poisson and gradient formulations agree", "statement": "The solution of the Poisson problem is the minimiser of the weighted least squares problem of the gradient formulation; after subtracting the value at the reference cast both give the same correction.", "quantifier": "every connected region, weights, errors", "why_tests_cant": "for-all over graphs; tests compare one case with tolerance", "anchors": ["neutralocean/surface/omega.py: _omega_matsolve_gradient, _omega_matsolve_poisson"]}
{"id": "C47", "title": "reference and isovalue checking", "statement": "Accepted combinations of ref, isoval, pin_p, pin_cast always determine the surface: ref given with isoval or pin, or pin alone.", "quantifier": "every combination of presence/absence of the four options, both surface types", "why_tests_cant": "finite but tests cover a few", "anchors": ["neutralocean/surface/isopycnal.py: _check_ref, _choose_ref_isoval"]}
{"id": "C48", "title": "pin options are unused when ref and isoval are given (documented)", "statement": "potential_surf documents that pin_cast and pin_p are not used if both ref and isoval are provided.", "quantifier": "all inputs", "why_tests_cant": "tests do not pass all four", "anchors": ["neutralocean/surface/isopycnal.py: _isopycnal"]}
{"id": "C49", "title": "Veronis density is a line integral", "statement": "The integral of the vertical gradient is 0 from a point to itself, changes sign when the limits are swapped, and is additive over any intermediate pressure in range; it is NaN if a limit is out of range; for locally constant compressibility terms and linear interpolation it equals the potential density difference.", "quantifier": "all casts, limits, step sizes", "why_tests_cant": "for-all over casts and limits", "anchors": ["neutralocean/label.py: _int_dlrpd_dz, _int_x_k, veronis"]}
{"id": "C50", "title": "jmd95 derivatives are the derivatives of the density", "statement": "rho_s_t and rho_p of jmd95 are the exact partial derivatives of rho.", "quantifier": "every s>0, t, p with nonzero denominators", "why_tests_cant": "tests use finite differences at one point", "anchors": ["neutralocean/eos/jmd95.py: rho, rho_s_t, rho_p"]}
{"id": "C51", "title": "jmdfwg06 derivatives are the derivatives of the density", "statement": "rho_s_t and rho_p of jmdfwg06 are the exact partial derivatives of rho.", "quantifier": "every s>0, t, p with nonzero denominator", "why_tests_cant": "tests use finite differences at one point", "anchors": ["neutralocean/eos/jmdfwg06.py: rho, rho_s_t, rho_p"]}
{"id": "C52", "title": "gsw first derivatives are the derivatives of specific volume", "statement": "specvol_s_t and specvol_p are the exact partial derivatives of specvol.", "quantifier": "every SA >= 0, every CT, p", "why_tests_cant": "75 coefficient polynomials; tests compare at few points", "anchors": ["neutralocean/eos/gsw.py: specvol, specvol_s_t, specvol_p"]}
{"id": "C53", "title": "gsw second and third derivatives are derivatives of the lower ones", "statement": "Every second and third order derivative function of gsw is the exact partial derivative of the function of one order less.", "quantifier": "every SA>0, CT, p", "why_tests_cant": "third derivatives are not tested at all", "anchors": ["neutralocean/eos/gsw.py: second and third derivative functions"]}
{"id": "C54", "title": "Boussinesq wrapper obeys the chain rule", "statement": "make_eos_p with grav and rho_c returns the derivative with respect to depth of the function returned by make_eos with the same arguments, for any eos with pressure derivative; with either missing the eos is used unchanged.", "quantifier": "every differentiable eos, grav, rho_c", "why_tests_cant": "for-all over eos", "anchors": ["neutralocean/eos/tools.py: make_bsq, make_eos, make_eos_p"]}
{"id": "C55", "title": "make_pp resolves every accepted request", "statement": "make_pp returns a function for exactly the accepted option combinations and each name it builds exists in the package.", "quantifier": "all strings and integers as options", "why_tests_cant": "combinatorial", "anchors": ["neutralocean/ppinterp/tools.py: make_pp"]}
{"id": "C56", "title": "find_first_nan, take_fill, val_at, graph_binary_fcn behave pointwise", "statement": "find_first_nan returns the number of leading non-NaN levels; take_fill takes a[idx] where idx>=0 and NaN elsewhere; val_at picks level k and NaN for negative k.", "quantifier": "all arrays", "why_tests_cant": "for-all over arrays", "anchors": ["neutralocean/lib.py: find_first_nan, take_fill, val_at"]}
{"id": "C57", "title": "val_at does not modify its input (expected)", "statement": "Looking up values does not change the data array.", "quantifier": "all k, including negative int k", "why_tests_cant": "no test uses a negative int", "anchors": ["neutralocean/lib.py: val_at"]}
{"id": "C58", "title": "graph.build_grid from an adjacency matrix", "statement": "Each unordered pair of nodes joined in a symmetric adjacency structure becomes exactly one edge; directed structures are kept.", "quantifier": "all matrices", "why_tests_cant": "for-all over graphs", "anchors": ["neutralocean/grid/graph.py: build_grid, sym_structure, triu_if_sym_structure"]}
{"id": "C59", "title": "stabilize_ST leaves stable casts untouched, and its objective gradient is right", "statement": "Casts already meeting the minimum stability are unchanged; jac is the gradient of the objective f; if the external minimiser returns a feasible point, the cast meets the constraint afterwards and a second call changes nothing.", "quantifier": "all casts, any minimiser outcome", "why_tests_cant": "for-all over minimiser behaviours", "anchors": ["neutralocean/stability.py: stabilize_ST, count_unstable"]}
{"id": "C60", "title": "stabilize_ST changes the caller's arrays (documented)", "statement": "stabilize_ST is documented to mutate S and T in place.", "quantifier": "every layout (vertical dimension, dtype)", "why_tests_cant": "tests use contiguous float64 arrays with vertical last", "anchors": ["neutralocean/stability.py: stabilize_ST", "neutralocean/lib.py: _process_casts"]}
{"id": "C61", "title": "mixed_layer pressure is consistent with the threshold", "statement": "When the potential density difference profile is strictly increasing, the returned pressure is NaN exactly when the threshold is outside the profile range, and otherwise it is the point at which the linearly interpolated profile equals the threshold; a larger threshold never gives a shallower result.", "quantifier": "all casts with increasing difference profile", "why_tests_cant": "for-all", "anchors": ["neutralocean/mixed_layer.py: mixed_layer"]}
{"id": "C62", "title": "synthocean produces a well formed ocean", "statement": "synthocean's pressure levels start at 0, end at the bottom pressure and increase strictly; walls are NaN exactly where requested.", "quantifier": "every size and bottom pressure", "why_tests_cant": "for-all sizes", "anchors": ["neutralocean/synthocean.py: synthocean"]}
{"id": "C63", "title": "brent's bracket survives rounding", "statement": "In any arithmetic, if brent's search loop finishes, the returned point or its bracketing partner still straddle a sign change, or the value there is exactly zero.", "quantifier": "every arithmetic, every function, every start state", "why_tests_cant": "float rounding patterns cannot be enumerated", "anchors": ["neutralocean/fzero.py: brent"]}
{"id": "C64", "title": "valid range of data ending in NaNs", "statement": "As documented for valid_range_1: if X[k] is the last finite value (everything after it is NaN), the returned K equals len(X).", "quantifier": "every array", "why_tests_cant": "for-all arrays; the sentence describes an edge case tests skip", "anchors": ["neutralocean/ppinterp/lib.py: valid_range_1"]}
{"id": "C65", "title": "a NaN bottle gives NaN, not an endless loop", "statement": "ntp_bottle_to_cast called with NaN in the bottle returns (it reports NaN).", "quantifier": "every bottle including NaN, every cast", "why_tests_cant": "non-termination cannot be observed by a test, and NaN inputs are rarely tested", "anchors": ["neutralocean/traj.py: ntp_bottle_to_cast", "neutralocean/fzero.py: guess_to_bounds"]}
{"id": "C66", "title": "bfs_conncomp1_wet returns the connected component of the final surface and stops only when no link is left", "statement": "After bfs_conncomp1_wet the returned list is exactly the connected component of the root among the casts whose pressure is finite at the end, and every dry cast adjacent to it either has fewer than two data, or its neutral link from each listed neighbour fails or ends in its mixed layer.", "quantifier": "every graph, surface, ocean, root", "why_tests_cant": "wetting and searching interleave: a cast wetted late changes what is reachable", "anchors": ["neutralocean/bfs.py: bfs_conncomp1_wet"]}
{"id": "C67", "title": "bfs_conncomp1_wet makes at most one NTP calculation per dry cast", "statement": "As its note says, bfs_conncomp1_wet performs at most one bottle-to-cast calculation per dry cast.", "quantifier": "every graph, surface, ocean", "why_tests_cant": "the number of calls is not an output", "anchors": ["neutralocean/bfs.py: bfs_conncomp1_wet (Notes)"]}
{"id": "C68", "title": "edges_to_graph is the symmetric weighted adjacency matrix", "statement": "The matrix is symmetric; if one edge joins two different nodes both entries are its weight; with positive weights the nonzero entries are exactly the joined pairs.", "quantifier": "every edge list and weights", "why_tests_cant": "for-all over graphs", "anchors": ["neutralocean/grid/graph.py: edges_to_graph"]}
{"id": "C69", "title": "graph_binary_fcn is edgewise", "statement": "Entry i is the function of the values at the two ends of edge i, and depends on nothing else.", "quantifier": "every graph, values, function", "why_tests_cant": "for-all", "anchors": ["neutralocean/grid/graph.py: graph_binary_fcn"]}
{"id": "C70", "title": "the choice of vertical axis does not matter", "statement": "Whichever axis (by name, positive or negative number) is vertical, level k of the cast at horizontal position m is taken from the input at m with k inserted at that axis; a 1D pressure vector gives level k of every cast.", "quantifier": "all dimensions, shapes, axes", "why_tests_cant": "index bookkeeping for all shapes", "anchors": ["neutralocean/lib.py: _process_casts, _process_vert_dim, _contiguous_casts"]}
{"id": "C71", "title": "pinning cast by coordinates selects that cast (documented)", "statement": "A dict pin_cast, suitable for S.sel(pin_cast), is converted to the indices of the same cast of S.", "quantifier": "all coordinates and dicts", "why_tests_cant": "tests use one order of keys", "anchors": ["neutralocean/lib.py: _process_pin_cast"]}
{"id": "C72", "title": "periodic dimensions given by name or flag", "statement": "Each dimension is periodic iff named; the result is None (only without diagnostics) or has two entries.", "quantifier": "all arguments", "why_tests_cant": "for-all", "anchors": ["neutralocean/lib.py: _process_wrap"]}
{"id": "C73", "title": "tripolar edge list lists each adjacency once", "statement": "No adjacency appears twice and no cell is adjacent to itself in the edge list of a tripolar grid (otherwise fold edges have double weight in norms and solvers).", "quantifier": "every nj, ni", "why_tests_cant": "small tests count edges only", "anchors": ["neutralocean/grid/tripolar.py: _build_edges"]}
{"id": "C74", "title": "xgcm edge list and edge data are aligned and round-trip", "statement": "Given the neighbour arrays, the edges are exactly each node with its existing i- and j-neighbours, edge data is listed in the same order, and edgedata_to_maps returns the maps, with NaN exactly where there is no neighbour.", "quantifier": "every number of nodes, neighbour arrays, data", "why_tests_cant": "index alignment for all connectivities", "anchors": ["neutralocean/grid/xgcm.py: build_grid, edgedata_to_maps"]}
{"id": "C75", "title": "isopycnal surfaces pass exactly through the pin", "statement": "When pin_p is given, potential_surf and anomaly_surf return exactly this pressure at the pinning cast with salinity and temperature interpolated there; every other cast holds the result of its own vertical solve.", "quantifier": "every ocean, arithmetic, options", "why_tests_cant": "for-all over oceans", "anchors": ["neutralocean/surface/isopycnal.py: _isopycnal"]}
{"id": "C76", "title": "a pinned isopycnal's returned reference and isovalue are consistent with its value at the pin", "statement": "Without isoval, d['ref'] and d['isoval'] satisfy eos(s,t,ref) == isoval (or the anomaly equation) at the pinning cast, exactly, with the default reference being the pin itself.", "quantifier": "every ocean, arithmetic, options", "why_tests_cant": "for-all over equations of state", "anchors": ["neutralocean/surface/isopycnal.py: _choose_ref_isoval"]}
{"id": "C77", "title": "a neutral surface is a fixed point of the omega matrix problem", "statement": "If the neutrality error vanishes on every edge of the region, the correction returned by the Poisson solver is exactly zero on the region (so the surface is not moved).", "quantifier": "every connected region, weights, reference cast", "why_tests_cant": "for-all over graphs and weights; no test constructs an exactly neutral surface", "anchors": ["neutralocean/surface/omega.py: _omega_matsolve_poisson"]}
{"id": "C78", "title": "omega surfaces are confined to a connected region", "statement": "After every pass of omega_surf, salinity, temperature and pressure are all NaN at every cast outside the region used in that pass, and that region is connected with the pinning cast.", "quantifier": "every grid, initial surface, wetting and number of passes", "why_tests_cant": "for-all over graphs and surfaces", "anchors": ["neutralocean/surface/omega.py: omega_surf"]}
{"id": "C79", "title": "a neutral surface is left alone by a pass of omega_surf", "statement": "If the surface going into the matrix problem is exactly neutral on all edges of its region, the pass returns the same salinity, temperature and pressure on that region.", "quantifier": "every connected region, weights and ocean", "why_tests_cant": "for-all over graphs; needs an exactly neutral surface", "anchors": ["neutralocean/surface/omega.py: omega_surf"]}
{"id": "C80", "title": "an omega correction never increases the linearised error", "statement": "The weighted sum of squares of the errors corrected by the solution of the matrix problem is at most that of the uncorrected errors.", "quantifier": "every connected region, weights, errors", "why_tests_cant": "for-all over graphs", "anchors": ["neutralocean/surface/omega.py: _omega_matsolve_poisson"]}
{"id": "C81", "title": "omega_surf with ITER_MAX = 0 returns the initial surface (violated)", "statement": "With ITER_MAX = 0 omega_surf makes no pass and returns the initial surface with its diagnostics.", "quantifier": "every input", "why_tests_cant": "boundary value of an option that no test uses", "anchors": ["neutralocean/surface/omega.py: omega_surf"]}
{"id": "C82", "title": "Veronis density of a linear equation of state is the density, at any step size", "statement": "With linear interpolation, an equation of state linear in S and T and b = 1, veronis returns the density of the interpolated water at p1, whatever the base pressure p0 and the step size dp.", "quantifier": "all casts, positions, step sizes, coefficients", "why_tests_cant": "for-all over casts and step sizes; trapezoidal rule is only exact in this class", "anchors": ["neutralocean/label.py: veronis, _int_x_k, _int_dlrpd_dz"]}
{"id": "C83", "title": "veronis is NaN outside the data", "statement": "For a cast with finite increasing pressures veronis returns NaN if either limit is NaN, outside the pressures, or below the deepest bottle with valid S and T, for linear and pchip interpolation and any step.", "quantifier": "all casts, limits, step sizes", "why_tests_cant": "for-all over casts, positions of the bottom and limits", "anchors": ["neutralocean/label.py: veronis, _int_dlrpd_dz, pot_dens_1"]}
{"id": "C84", "title": "Veronis density converges to the integral it is defined by", "statement": "As dp goes to 0, veronis converges to the potential density at p0 plus b times the integral from p0 to p1 of rho_S dS/dp + rho_T dT/dp along the interpolated cast; if density does not depend on pressure and b = 1 the limit is the density at p1.", "quantifier": "all casts, linear and pchip interpolation, all equations of state with continuous derivatives, all limits", "why_tests_cant": "a limit statement over a continuum of step sizes", "anchors": ["neutralocean/label.py: veronis, _int_x_k, _int_dlrpd_dz"]}
{"id": "C85", "title": "veronis is NaN outside the range of NaN-padded pressures (violated)", "statement": "The documentation: if p0 or p1 are outside the range of P, NaN is returned; also when P is padded with NaN below the bottom.", "quantifier": "all casts, including NaN padded pressures", "why_tests_cant": "needs padded pressures and a limit below the bottom", "anchors": ["neutralocean/label.py: _int_dlrpd_dz"]}
{"id": "C86", "title": "The Jacobian given to the minimiser is the gradient of the objective", "statement": "In stabilize_ST, for every perturbation x, direction h and weight, objective(x+h) = objective(x) + jac(x).h + objective(h); with positive weight the objective is non-negative and zero only for the zero perturbation.", "quantifier": "all vectors of even length and weights", "why_tests_cant": "a wrong gradient only slows or biases the optimiser; tests see a plausible result", "anchors": ["neutralocean/stability.py: stabilize_ST (f, jac)"]}
{"id": "C87", "title": "count_unstable by pairs agrees with stabilize_ST", "statement": "count_unstable without interpolation is zero exactly when density referenced to the mid pressure strictly increases between all neighbouring bottles; after a successful stabilisation with positive minimum it is zero.", "quantifier": "all casts", "why_tests_cant": "for-all over casts", "anchors": ["neutralocean/stability.py: count_unstable, stabilize_ST"]}
{"id": "C88", "title": "count_unstable with interpolation counts unstable bottles (violated)", "statement": "With linear interpolation the count should reflect each unstable pair once. It does not: the deepest bottle never matters, and an unstable first pair is counted twice.", "quantifier": "all casts of at least three bottles", "why_tests_cant": "a universal independence statement", "anchors": ["neutralocean/stability.py: count_unstable"]}
{"id": "C89", "title": "stabilize_ST handles casts independently and in order", "statement": "Each cast's outcome depends only on that cast; when a cast fails the call raises, casts before it keep their changes and casts after it are untouched.", "quantifier": "all lists of casts, any minimiser outcomes", "why_tests_cant": "needs every failure position", "anchors": ["neutralocean/stability.py: stabilize_ST"]}
{"id": "C90", "title": "mixed_layer searches potential density difference, whatever the equation of state returns", "statement": "Whether eos returns density or specific volume the profile searched is the difference of potential density from the reference bottle; a cast with a denser top bottle nevertheless yields NaN (violated: crossing is missed).", "quantifier": "all casts, all eos with density above 1", "why_tests_cant": "for-all over eos", "anchors": ["neutralocean/mixed_layer.py: mixed_layer"]}
{"id": "C91", "title": "Which bottle_index mixed_layer accepts", "statement": "bottle_index selects a bottle exactly when it is in 0..nk-1 or in -nk..-2; -1 raises for every cast.", "quantifier": "every integer and number of bottles", "why_tests_cant": "slice semantics for all integers", "anchors": ["neutralocean/mixed_layer.py: mixed_layer"]}
{"id": "C92", "title": "gsw handles negative salinity consistently (violated)", "statement": "specvol treats negative salinity as zero, in every derivative function too. The reported salinity derivative there should therefore be zero; it is not (violated for every negative salinity).", "quantifier": "every SA<0, CT, p (the nonzero derivative at CT=p=0)", "why_tests_cant": "for-all over negative salinities; a derivative claim", "anchors": ["neutralocean/eos/gsw.py: specvol, specvol_s_t, _process"]}
{"id": "C93", "title": "NaN in, NaN out of the equations of state; finite in, finite out for gsw", "statement": "NaN in any argument gives NaN density or specific volume (jmd95 and jmdfwg06 also for negative salinity); gsw specific volume of finite numbers is finite.", "quantifier": "every argument triple including infinities and NaN", "why_tests_cant": "tests use a few valid points", "anchors": ["neutralocean/eos/jmd95.py: rho", "neutralocean/eos/jmdfwg06.py: rho", "neutralocean/eos/gsw.py: specvol"]}
{"id": "C94", "title": "equations of state are sound on the oceanographic range", "statement": "For 0<=S<=42, -2<=T<=40 (gsw: -6<=CT), 0<=p<=10000 no denominator vanishes, the density is in a physical range, and it strictly increases with salinity and with pressure.", "quantifier": "every real S, T, p in the box", "why_tests_cant": "a continuum of points; signs of derivatives of 75-term polynomials", "anchors": ["neutralocean/eos/jmd95.py: rho, rho_s_t, rho_p", "neutralocean/eos/jmdfwg06.py: rho, rho_s_t, rho_p", "neutralocean/eos/gsw.py: specvol, specvol_s_t, specvol_p"]}
{"id": "C95", "title": "a function-valued eos is used as it is (violated)", "statement": "When eos is a function, all entry points should treat grav and rho_c alike. They do not: the surface functions ignore grav and rho_c, while make_eos (mixed_layer, ntp and trajectory functions) applies the Boussinesq conversion, so a function made by make_eos is converted twice.", "quantifier": "every function, grav, rho_c, depth with nonzero difference", "why_tests_cant": "universal over eos functions", "anchors": ["neutralocean/eos/tools.py: make_eos", "neutralocean/surface/isopycnal.py: _process_eos"]}
{"id": "C96", "title": "which eos arguments are accepted", "statement": "make_eos and its derivative versions succeed exactly on the three known names and on callables; _process_eos reads a name, a callable, or a pair of callables, and refuses everything else.", "quantifier": "every string, callable, sequence and other value", "why_tests_cant": "for-all over strings and kinds of values", "anchors": ["neutralocean/eos/tools.py: make_eos, make_eos_s_t, make_eos_p", "neutralocean/surface/isopycnal.py: _process_eos"]}
{"id": "C97", "title": "interpolation functions share a signature (violated)", "statement": "The interpolation functions returned by make_pp should all be callable without the derivative order. The two vectorised linear functions are not.", "quantifier": "every accepted request", "why_tests_cant": "combinatorial", "anchors": ["neutralocean/ppinterp/tools.py: make_pp", "neutralocean/ppinterp/linear.py: linear_interp, linear_interp_two", "neutralocean/ppinterp/pchip.py: pchip_interp, pchip_interp_two"]}
{"id": "C98", "title": "synthocean works for every shape (violated)", "statement": "For every shape P[-1] should be the requested bottom pressure, and temperature should be NaN on walls only. Violated for one level (P=[0]) and for a single column or a single row of a uniform ocean (every temperature NaN).", "quantifier": "every shape", "why_tests_cant": "for-all sizes, edge sizes are not tested", "anchors": ["neutralocean/synthocean.py: synthocean"]}
{"id": "C99", "title": "synthocean options do what they say", "statement": "The southern anomaly raises surface salinity linearly from SSSSa in the south to nothing in the north and leaves the bottom alone; a zonally uniform ocean is independent of longitude; the cell areas are positive and add up to the area of the latitude band.", "quantifier": "every shape, anomaly, cell", "why_tests_cant": "for-all over shapes; the area sum is a trigonometric identity", "anchors": ["neutralocean/synthocean.py: synthocean"]}
{"id": "C100", "title": "PCHIP uses Fritsch and Butland's slopes", "statement": "The derivative of the PCHIP interpolant at each data site is: inside, the weighted harmonic mean of the two neighbouring chord slopes (zero at a local extremum); at either end, the slope of the parabola through the three outermost sites, limited to lie between zero and three times the end chord slope; with two sites, the chord slope.", "quantifier": "every data set with at least two valid sites, at every site", "why_tests_cant": "Tests compare against one reference implementation at some data sets; only a proof covers both branches of the limiter at both ends for all spacings.", "anchors": ["neutralocean/ppinterp/pchip.py: _pchip_coeffs_1, _pchip_coeffs_i", "neutralocean/ppinterp/ppinterp.py: ppval_1"]}
{"id": "C101", "title": "Interpolation reproduces lines and commutes with change of units", "statement": "Data on a straight line are interpolated by that line, by both interpolants. Replacing the values by c*Y + e and the sites by p*X + q with p > 0 replaces the interpolated value at p*x + q by c*v + e.", "quantifier": "every data set, all units c, e, p > 0, q and every evaluation point in range", "why_tests_cant": "The claim compares results for infinitely many pairs of inputs.", "anchors": ["neutralocean/ppinterp/pchip.py: _pchip_coeffs_1", "neutralocean/ppinterp/linear.py: linear_coeffs_1", "neutralocean/ppinterp/ppinterp.py: ppval_1"]}
{"id": "C102", "title": "Neighbours on tiled (xgcm) grids", "statement": "For dims (tile, j, i) in any order: the edges built join cell (t,j,i) with (t,j,i-1) and (t,j-1,i) within each tile ('left' shifts) or (t,j,i+1) and (t,j+1,i) ('right'), and across tiles exactly as xgcm's padding says; no other edges. Names in `dims` that do not include the tile name, 'i' and 'j' are rejected.", "quantifier": "every tile size, number of tiles, order of dims, cross-tile connections and both shifts in both dimensions", "why_tests_cant": "All tile sizes and all connection tables; tests build one configuration (ECCO, left shifts).", "anchors": ["neutralocean/grid/xgcm.py: _build_im1_jm1, build_grid"]}
{"id": "C103", "title": "Returned omega surface avoids the mixed layer", "statement": "The documentation says that a surface shallower than p_ml is set to NaN, except for the initial surface: after the first pass no cast of the returned surface lies in the mixed layer.", "quantifier": "every ocean, grid, mixed layer, initial surface, number of iterations and wetting window", "why_tests_cant": "depends on the interplay of wetting, removal and the vertical solve over all iterations", "anchors": ["neutralocean/surface/omega.py: omega_surf"]}
{"id": "C104", "title": "omega_surf on gridded arrays: every cast keeps its place, and the surface goes through the pinning point", "statement": "For S, T, P with any number of horizontal dimensions and any position of the vertical dimension, the entry of the returned surface at horizontal indices m belongs to the cast of S, T, P at m, adjacency is that of the grid, and at the pinning cast the pressure is p_init there and the salinity and temperature are those of that cast interpolated to it.", "quantifier": "all shapes, vertical dimensions, grids, pinning casts, initial surfaces, options and equations of state, any rounding, any result of the sparse solver", "why_tests_cant": "flattening mistakes only show for particular shapes and orders of dimensions", "anchors": ["neutralocean/surface/omega.py: omega_surf", "neutralocean/lib.py: _process_casts, _process_pin_cast"]}
{"id": "C105", "title": "pin_cast of omega_surf can be an int (documented)", "statement": "pin_cast is documented as int or tuple of int, the index of the cast that is kept fixed.", "quantifier": "all ints and shapes", "why_tests_cant": "tests use tuples", "anchors": ["neutralocean/surface/omega.py: omega_surf", "neutralocean/lib.py: _process_pin_cast"]}
{"id": "C106", "title": "Surfaces of DataArrays keep labels, names and order of dimensions", "statement": "For S, T, P as DataArrays the returned s, t, p are DataArrays with the dimensions of S except the vertical one, in the same order; the value at given labels is computed from the cast at those labels; s and t have the name and attributes of S and T, and p the name of P (no name or attributes if P is an ndarray).", "quantifier": "all dimension names, orders, shapes, coordinates, positions of the vertical dimension given by name or number, and all calculations that work cast by cast", "why_tests_cant": "a transposed container has the right shape whenever two dimensions have equal length", "anchors": ["neutralocean/lib.py: _xrs_in, _xr_in, _xr_out, _process_casts", "neutralocean/surface/isopycnal.py: _isopycnal"]}
{"id": "C107", "title": "The pressure of a surface has the attributes of P", "statement": "The container of p is like the input P, as the comment says: its attributes are those of P.", "quantifier": "all attributes", "why_tests_cant": "tests use data without attributes", "anchors": ["neutralocean/lib.py: _xrs_in"]}
{"id": "C108", "title": "DataArrays are accepted wherever ndarrays are", "statement": "A call that returns for ndarrays returns for DataArrays holding the same data.", "quantifier": "all DataArrays, also with dimensions that have no coordinate, and all vert_dim", "why_tests_cant": "tests use data with all coordinates", "anchors": ["neutralocean/lib.py: _xr_in, _process_vert_dim"]}
{"id": "C109", "title": "Caches are invisible", "statement": "make_pp, make_eos, make_eos_s_t, make_eos_p and the vertical solvers are cached. In every history of calls, from any number of threads with any interleaving, every call returns (or raises) what it would without the cache, and a cache never holds more than its maximum number of results.", "quantifier": "all histories, all schedules, all arguments", "why_tests_cant": "tests run one call order in one thread", "anchors": ["neutralocean/eos/tools.py: _make_eos, make_bsq, vectorize_eos", "neutralocean/ppinterp/tools.py: make_pp", "neutralocean/surface/_vertsolve.py: _make_vertsolve"]}
{"id": "C110", "title": "Functions in use are not compiled again", "statement": "A repeated request for an equation of state, interpolant or solver is not computed again when fewer than ten other requests were made since.", "quantifier": "all histories of calls", "why_tests_cant": "eviction depends on the whole history", "anchors": ["neutralocean/eos/tools.py: _make_eos, make_bsq", "neutralocean/ppinterp/tools.py: make_pp", "neutralocean/surface/_vertsolve.py: _make_vertsolve"]}
{"id": "C111", "title": "potential_surf and anomaly_surf on gridded arrays: every cast keeps its place, and the surface goes through the pinning point", "statement": "For S, T, P with any number of horizontal dimensions and any position of the vertical dimension, the entry of the returned surface at horizontal indices m is the vertical solve on the cast of S, T, P at m for the returned ref and isoval; at the pinning cast it has pressure pin_p and the salinity and temperature of that cast there.", "quantifier": "all shapes, vertical dimensions, pinning casts, references, equations of state and any rounding", "why_tests_cant": "flattening mistakes only show for particular shapes and orders of dimensions", "anchors": ["neutralocean/surface/isopycnal.py: potential_surf, anomaly_surf, _isopycnal", "neutralocean/surface/_vertsolve.py: _vertsolve"]}
{"id": "C112", "title": "pin_cast of potential_surf and anomaly_surf can be a tuple or a list (documented)", "statement": "pin_cast is documented as tuple or list of int of length 2, the index of the cast where the surface is at pin_p.", "quantifier": "all indices, shapes and data", "why_tests_cant": "tests use tuples", "anchors": ["neutralocean/surface/isopycnal.py: potential_surf, _check_ref, _choose_ref_isoval"]}
{"id": "C113", "title": "Vectorised functions work cast by cast, with broadcasting", "statement": "linear_interp, pchip_interp, their two-variable versions, linear_coeffs, pchip_coeffs, ppval and functions made by vectorize_eos accept exactly the arrays whose vertical lengths agree and whose other dimensions can be broadcast; the result has the broadcast shape, and each entry is the scalar function on the casts found there, missing dimensions and dimensions of length 1 being repeated.", "quantifier": "all numbers of dimensions, all shapes, all data, any arithmetic", "why_tests_cant": "infinitely many combinations of shapes; tests use a few", "anchors": ["neutralocean/ppinterp/linear.py:linear_interp", "neutralocean/ppinterp/linear.py:linear_coeffs", "neutralocean/ppinterp/pchip.py:pchip_interp", "neutralocean/ppinterp/pchip.py:pchip_coeffs", "neutralocean/ppinterp/ppinterp.py:ppval", "neutralocean/eos/tools.py:vectorize_eos"]}
{"id": "C114", "title": "On arrays too, on-the-fly interpolation equals precomputed coefficients", "statement": "For arrays of any shapes that can be broadcast, linear_interp(x, X, Y, d) and ppval(x, X, linear_coeffs(X, Y), d) have the same shape and entries, and likewise for PCHIP.", "quantifier": "all shapes that can be broadcast, all data, all derivative orders, any arithmetic (for PCHIP: with commutative addition)", "why_tests_cant": "the intermediate table has another shape than the result; equality must hold for every combination of shapes", "anchors": ["neutralocean/ppinterp/linear.py:linear_interp", "neutralocean/ppinterp/linear.py:linear_coeffs", "neutralocean/ppinterp/pchip.py:pchip_interp", "neutralocean/ppinterp/pchip.py:pchip_coeffs", "neutralocean/ppinterp/ppinterp.py:ppval"]}
{"id": "C115", "title": "Any dimension of the data sites may have length 1 (documented)", "statement": "linear_coeffs and pchip_coeffs document that any dimension of X or Y may be a singleton. Violated for the last dimension: every such call raises ValueError.", "quantifier": "all data and all shapes with last dimensions 1 and n", "why_tests_cant": "holds for all data; refusing is a property of shapes", "anchors": ["neutralocean/ppinterp/linear.py:linear_coeffs", "neutralocean/ppinterp/pchip.py:pchip_coeffs"]}
{"id": "C116", "title": "gswc derivatives are with respect to the arguments of rho", "statement": "Given what the GSW library documents (pressure derivative per Pa), gswc.rho_s_t and gswc.rho_p are the derivatives of gswc.rho with respect to salinity, temperature and pressure in dbar.", "quantifier": "all finite arguments where the library's derivatives exist", "why_tests_cant": "a statement about derivatives and units", "anchors": ["neutralocean/eos/gswc.py:rho_p", "neutralocean/eos/gswc.py:rho_s_t"]}
{"id": "C117", "title": "count_unstable of an ocean is the sum over its casts", "statement": "For well formed arrays of any number of dimensions, with the vertical anywhere and P as an array or a vector, count_unstable is the sum over all horizontal positions of the count of that cast.", "quantifier": "all shapes, all data, both ways of judging stability", "why_tests_cant": "all shapes and positions of the vertical dimension", "anchors": ["neutralocean/stability.py:count_unstable"]}
{"id": "C118", "title": "brent works in floating point", "statement": "In arithmetic with the rounding of double precision (no overflow or underflow), brent(f,a,b,t) with t>0 stops within 2.5*(b-a)/t+1 loop passes for every f, never divides by zero, returns NaN exactly when f(a)*f(b)>0, and otherwise returns a point of [a,b] that is a zero of the computed f or has a point with a value of the opposite sign within (2+2^-46)*(2*eps*|r|+t).", "quantifier": "every rounding with relative error at most 2^-53, monotone and symmetric; every function, computed with rounding or not; every bracket and tolerance", "why_tests_cant": "the set of rounding patterns and adversarial functions is unbounded", "anchors": ["neutralocean/fzero.py: brent"]}
{"id": "C119", "title": "guess_to_bounds and brent_guess work in floating point", "statement": "In arithmetic with the rounding of double precision, guess_to_bounds returns within 13 passes a sub-interval of [A,B] on which f changes sign, or NaN if f(A) and f(B) have the same sign; brent_guess then returns a point next to a sign change. If the computed f is within delta of a continuous G, that point is within the solver tolerance of a point where |G|<=delta.", "quantifier": "every rounding of double precision accuracy, every function, every representable guess and range", "why_tests_cant": "the comments in the code worry about machine precision problems and endless loops; no test can exclude them", "anchors": ["neutralocean/fzero.py: guess_to_bounds, brent_guess"]}
{"id": "C120", "title": "brent refuses every range without a sign change (documented)", "statement": "brent returns NaN whenever f(a) and f(b) are both positive or both negative.", "quantifier": "every f, a, b in double precision including underflow", "why_tests_cant": "violated only where f(a)*f(b) underflows", "anchors": ["neutralocean/fzero.py: brent"]}
{"id": "C121", "title": "Linear interpolation is accurate in floating point", "statement": "In arithmetic with the rounding of double precision, linear interpolation of increasing data gives, inside the data, a number within (15|dy| + max|y|)*2^-53 of the straight line through the two neighbouring data (dy their difference), the same number on the fly and from a table, and NaN outside.", "quantifier": "all finite increasing data with any NaN padding, all evaluation sites", "why_tests_cant": "rounding errors depend on the data; no finite set of cases bounds them", "anchors": ["neutralocean/ppinterp/linear.py: linear_coeffs, linear_interp", "neutralocean/ppinterp/ppinterp.py: ppval_1, ppinterp_1"]}
{"id": "C122", "title": "Interpolants pass through the data and do not overshoot, to the last bit", "statement": "Evaluating an interpolant at a data site returns the datum itself, and between sites the value is between the neighbouring data, also in double precision.", "quantifier": "all finite increasing data", "why_tests_cant": "holds at the first site and in most cases; fails by rounding for particular data", "anchors": ["neutralocean/ppinterp/linear.py: linear_interp", "neutralocean/ppinterp/pchip.py: pchip_interp"]}
{"id": "C123", "title": "PCHIP is accurate in floating point", "statement": "In arithmetic with the rounding of double precision, the PCHIP coefficients of increasing data exist, and inside the data their value differs from that of the exactly computed interpolant by at most (1200 h D + max|y|)*2^-53, where h is the length of the interval around the site and D bounds the slopes of the data over that interval and its neighbours; NaN outside. On-the-fly interpolation gives the same bits.", "quantifier": "all finite increasing data with any NaN padding, all evaluation sites", "why_tests_cant": "the limiters branch on signs of rounded quantities; tests cannot show that no branch flips harmfully", "anchors": ["neutralocean/ppinterp/pchip.py: pchip_coeffs, pchip_interp", "neutralocean/ppinterp/ppinterp.py: ppval_1"]}
{"id": "C124", "title": "Neutral tangent planes, trajectories and surfaces are found in floating point", "statement": "In arithmetic with the rounding of double precision (no overflow or underflow), ntp_bottle_to_cast, neutral_trajectory and the per-cast solves of potential, anomaly and omega surfaces stop, never divide by zero, and give on a cast with data either three NaNs, with the computed residuals at both ends of the data of the same strict sign, or a pressure within the data next to a sign change of the computed residual, with salinity and temperature the interpolants there to the last bit. In a trajectory this holds for every link, and after a NaN everything is NaN.", "quantifier": "every rounding of double precision accuracy that is idempotent and exact for powers of two; every equation of state as computed; all casts with any NaN padding; all trajectories", "why_tests_cant": "rounding could move an iterate out of the data (giving NaN and an endless loop), which no finite test excludes", "anchors": ["neutralocean/traj.py: ntp_bottle_to_cast, neutral_trajectory", "neutralocean/surface/_vertsolve.py", "neutralocean/surface/isopycnal.py: potential_surf, anomaly_surf", "neutralocean/surface/omega.py: omega_surf"]}
{"id": "C125", "title": "Computed neutral tangent planes and surfaces are close to the exact ones", "statement": "In arithmetic with the rounding of double precision, with an equation of state computed to within eta of an exact one with Lipschitz constants Ls and Lt, the pressure returned by ntp_bottle_to_cast and by the per-cast solves is within the solver tolerance of a pressure in the data where the residual, evaluated exactly with the exact interpolants, is at most about 2*eta + Ls*eS + Lt*eT, with eS and eT the (explicit) rounding errors of the interpolation; salinity and temperature are within eS and eT of the exact interpolants. NaN is returned only if the exact residuals do not change sign by more than that. In a stably stratified cast the pressure is within tolerance plus this bound divided by the stratification of the exact solution, and is not NaN.", "quantifier": "every rounding of double precision accuracy; every cast and equation of state in a box of salinities, temperatures and pressures", "why_tests_cant": "error bounds for all data need a proof", "anchors": ["neutralocean/traj.py: ntp_bottle_to_cast", "neutralocean/surface/_vertsolve.py"]}
{"id": "C126", "title": "synthocean's grid geometry is that of a spherical grid", "statement": "The longitudes and latitudes returned by synthocean describe cells that meet, from 0 to 360 and from 80S to 60N, with centres in the middle; DXG, DXC, DYG are the lengths along circles of latitude and meridians between them on a sphere of the given radius, and RAC and RAS are the areas of the tracer cells and of the cells between centres on that sphere (as integrals; RAS of the southernmost row is that of the cell reaching one grid spacing south of the centre, when there are at least 7 rows so that this is not beyond the pole); all distances are positive.", "quantifier": "all numbers of cells", "why_tests_cant": "statements about integrals over the sphere and all grid sizes", "anchors": ["neutralocean/synthocean.py: synthocean"]}
{"id": "C127", "title": "Wetting happens in the requested iterations only", "statement": "omega_surf wets casts at the perimeter of the surface in the iterations from ITER_START_WETTING to ITER_STOP_WETTING, as far as its rules allow, and the number reported as newly wet is the number wetted. In all other iterations no dry cast becomes wet and zero is reported. With ITER_START_WETTING above ITER_MAX, casts dry in the initial surface are NaN in the result.", "quantifier": "all oceans, graphs, initial surfaces, solvers and numbers of iterations; any arithmetic", "why_tests_cant": "all histories of iterations", "anchors": ["neutralocean/surface/omega.py: omega_surf"]}
{"id": "C128", "title": "TOL_LRPD_MAV is in density units (documented)", "statement": "omega_surf documents that iterations exit when the mean absolute perturbation is less than TOL_LRPD_MAV, in units kg m-3 even if eos returns a specific volume. Violated for specific volume: the tolerance is divided by 1000^2 rather than by the square of the density, so iterations exit up to a factor (density/1000)^2 too early, never later than documented.", "quantifier": "all perturbations and densities", "why_tests_cant": "a statement about all perturbations", "anchors": ["neutralocean/surface/omega.py: omega_surf"]}
{"id": "C129", "title": "Equations of state are accurate to rounding on the oceanographic range", "statement": "For salinity 0 to 42, temperature -2 to 40 (gsw: -6 to 40) and pressure 0 to 10000, no function of jmd95, jmdfwg06 or gsw fails in float64, and what it returns differs from the value of the same formula in exact arithmetic by at most 1e-12 kg/m3 for the density of jmd95, 3.2e-12 for jmdfwg06, 2.2e-17 m3/kg for the specific volume of gsw, with analogous bounds for every derivative up to third order", "quantifier": "every point of the range; every rounding to nearest with 53 bits", "why_tests_cant": "there are about 2^150 argument triples; a test samples a few", "anchors": ["neutralocean/eos/jmd95.py:rho", "neutralocean/eos/jmd95.py:rho_s_t", "neutralocean/eos/jmd95.py:rho_p", "neutralocean/eos/jmdfwg06.py:rho", "neutralocean/eos/jmdfwg06.py:rho_s_t", "neutralocean/eos/jmdfwg06.py:rho_p", "neutralocean/eos/gsw.py:specvol", "neutralocean/eos/gsw.py:specvol_first_derivs", "neutralocean/eos/gsw.py:specvol_second_derivs", "neutralocean/eos/gsw.py:specvol_third_derivs"]}
{"id": "C130", "title": "Sensitivity of the equations of state, and vertical solves with them", "statement": "On the oceanographic range density and specific volume have explicit Lipschitz constants, the derivatives returned in float64 have the physical signs and sizes, and neutral tangent planes, potential density surfaces, anomaly surfaces and omega corrections computed in float64 with the library's own equations of state return a point within solver tolerance of one where the exact residual is at most a few 1e-12 kg/m3 (4.5e-17 m3/kg) plus the interpolation error", "quantifier": "every pair of points of the range; every cast with data in the range, both interpolants, every tolerance, reference and isovalue", "why_tests_cant": "composition of rounding errors of interpolation, equation of state and root finder over all casts", "anchors": ["neutralocean/eos/jmd95.py:rho", "neutralocean/eos/jmdfwg06.py:rho", "neutralocean/eos/gsw.py:specvol", "neutralocean/traj.py:_ntp_bottle_to_cast", "neutralocean/surface/_vertsolve.py:_vertsolve", "neutralocean/surface/_vertsolve.py:_vertsolve_omega"]}
{"id": "C131", "title": "Surfaces of one cast do not cross where it is stably stratified", "statement": "On a cast along which the interpolated potential density (or density anomaly) does not decrease with pressure, the potential density (anomaly) surface of isovalue v exists on the cast if and only if v lies between the values at the first and the last bottle, and of two surfaces the one with the smaller isovalue is not deeper than the other by more than the accuracies of the two solves; if the density changes at most by L per unit of pressure they are at least (v2 - v1)/L apart, up to the accuracies.  It is enough that salinity does not decrease and temperature does not increase from bottle to bottle: then the cast is stably stratified between bottles too, for linear and for PCHIP interpolation.", "quantifier": "all casts with two or more valid bottles and increasing pressures, all continuous equations of state, all pairs of isovalues, all reference values, both interpolants, all positive tolerances", "why_tests_cant": "Whether two surfaces cross depends on the real numbers between grid points and on every pair of isovalues; a test compares finitely many surfaces on finitely many casts.", "anchors": ["neutralocean/surface/_vertsolve.py: _vertsolve, _zero_potential, _zero_anomaly", "neutralocean/surface/isopycnal.py: potential_surf, anomaly_surf", "neutralocean/ppinterp/pchip.py: pchip_coeffs_1"]}
{"id": "C132", "title": "Neutral links and neutral trajectories can be retraced", "statement": "Going from a point of one cast to its neutral point on the next cast and from there back gives the starting point, up to the accuracy of the two solves times one plus the ratio of the largest to the smallest vertical density gradients; the way back exists if the starting point is farther than that from the ends of its cast.  Likewise for a whole trajectory followed back through the casts in reverse order, with the distances adding up link by link.", "quantifier": "all sequences of well formed casts, all start pressures, all continuous equations of state whose density differences to the midpoint pressure have vertical gradients between m > 0 and L, both interpolants, all positive tolerances", "why_tests_cant": "Reversibility is a statement about pairs of runs on arbitrary casts with an error that must be bounded, not observed.", "anchors": ["neutralocean/traj.py: ntp_bottle_to_cast, neutral_trajectory"]}
{"id": "C133", "title": "Stability tests in floating point", "statement": "In float64 arithmetic count_unstable counts every pair of bottles whose exact density difference at their mean pressure is below -θ and no pair whose difference is above θ, where θ comes from the rounding errors of the equation of state and of the mean pressure (2.1e-12 kg/m³ for jmd95 and 6.5e-12 kg/m³ for jmdfwg06 on the oceanographic range).  The test of stabilize_ST is right up to a bounded error of the gradient, and a cast that passes it with positive minimum gradients has no pair counted by count_unstable.", "quantifier": "all casts with data in the range of the equation of state and increasing pressures, all minimum gradients, every rounding to 53 bits", "why_tests_cant": "Near neutral stratification the outcome of the comparison is decided by rounding; a test cannot show that a large instability is never missed and a clear stability never flagged.", "anchors": ["neutralocean/stability.py: count_unstable, stabilize_ST, calc_dLRPDdp_fd_1"]}
{"id": "C134", "title": "The work of the wetting search is bounded by the number of links", "statement": "The neutral tangent plane calculations made by bfs_conncomp1_wet are, in order, a subsequence of the links from each cast of the returned list to its neighbours: no link is calculated twice, a cast is the target of at most as many calculations as it has neighbours in the returned list, and only casts that were dry at the start and have two or more data are targets.", "quantifier": "all graphs, all surfaces, all roots, all casts, any arithmetic", "why_tests_cant": "The number of root findings decides the cost of a run; a test sees it for one grid, and the documented bound of one calculation per dry cast is false (C67).", "anchors": ["neutralocean/bfs.py: bfs_conncomp1_wet"]}
{"id": "C135", "title": "Neutrality errors are accurate in floating point", "statement": "In float64 the neutrality error of an edge changes to exactly its negative when the edge is reversed. For parcels on the oceanographic range it never fails and differs from the exact derivatives, taken at the means of the two parcels up to rounding, times the differences of salinity and temperature by at most 1.3e-14 kg/m³ per g/kg plus 2.8e-14 kg/m³ per degree with jmd95 (2.3e-14 and 1.4e-13 with jmdfwg06, 1.3e-18 m³/kg and 9e-20 m³/kg with gsw). It is 0 between parcels of equal salinity and temperature, and with jmd95 between parcels of equal temperature its sign is that of the salinity difference.", "quantifier": "all parcels on the oceanographic range, all edges, every rounding with the laws of float64", "why_tests_cant": "Neutrality errors of a good surface are tiny differences; whether what is printed is signal or rounding noise cannot be told from runs in the same arithmetic.", "anchors": ["neutralocean/ntp.py: ntp_epsilon_errors, _ntp_epsilon_error1", "neutralocean/eos/jmd95.py: rho_s_t", "neutralocean/eos/jmdfwg06.py: rho_s_t", "neutralocean/eos/gsw.py: specvol_s_t"]}
{"id": "C136", "title": "Numbering of casts, order and direction of edges and formulation do not matter", "statement": "Let two calls of `omega_surf` describe the same ocean with the casts numbered differently, the edges of the grid listed in another order and each from either end, the neighbours in another order, and the sparse problem posed as `poisson` in one and `gradient` in the other (with edge weights whose squares agree). If the first returns a surface, the second returns the same surface, cast by cast, after the same number of iterations.", "quantifier": "every renumbering of the casts, every grid, ocean, initial surface, interpolant, tolerances and iteration count (exact arithmetic, exact sparse solvers, no wetting, sparse problem posed in every pass)", "why_tests_cant": "a test compares a few orderings of a few grids, and floating point noise hides which differences matter; that the result is a function of the ocean and not of its description is a statement about all pairs of descriptions", "anchors": ["neutralocean/surface/omega.py:omega_surf", "neutralocean/surface/omega.py:_omega_matsolve_gradient", "neutralocean/surface/omega.py:_omega_matsolve_poisson", "neutralocean/bfs.py", "neutralocean/grid/graph.py"]}
{"id": "C137", "title": "omega_surf returns on every well formed ocean and every pass does what it should", "statement": "On an ocean whose casts are land or have one block of data with increasing pressure, with a continuous finite equation of state, positive edge weights and a grid whose neighbour lists agree with its edges, `omega_surf`, from an initial surface or from a single pressure inside the data of the pinning cast and not above its mixed layer, with any wetting, raises no exception and terminates. In every pass the wetted casts are those reached by neutral links, the region is what is connected to the pinning cast, the correction is finite exactly there and as close to the exact one as the sparse solver allows, and every cast moves to the point where potential density referred to the old pressure is the old density plus the correction, within the tolerance, or becomes NaN only when there is no change of sign on the cast; the pinning point is kept exactly.", "quantifier": "every well formed ocean and grid, every initial surface, linear or PCHIP, every tolerance and number of iterations (at least one if diagnostics are asked for)", "why_tests_cant": "absence of exceptions and of endless loops on all inputs, through up to any number of passes whose inputs are outputs of earlier ones, cannot be sampled", "anchors": ["neutralocean/surface/omega.py:omega_surf", "neutralocean/surface/_vertsolve.py:_make_vertsolve", "neutralocean/fzero.py:guess_to_bounds", "neutralocean/fzero.py:brent"]}
{"id": "C138", "title": "The correction of an omega surface is as accurate as the sparse solver", "statement": "Whatever sparse solver is used, the correction returned for a region is zero at the pinning cast, NaN outside the region, and close to the exact balanced one: if the residuals of the solver sum to at most eta, it is within (1+R) eta at any cast joined to the pinning cast by a route of resistance R (the sum of dist/distperp along it); if the least squares solver comes within g of the least sum of squares, the square of the difference is at most k R g on a route of k edges. A route with fewer edges than the region has casts always exists, and changing the neutrality errors by small amounts changes the correction by at most 2 R times the weighted sum of the changes.", "quantifier": "every region, every positive weights, every neutrality errors, every solver with a bounded residual (or bounded suboptimality), every cast and every route to it", "why_tests_cant": "A test compares with one solver on one grid; the bound is on all solvers and all graphs, and the way an error of the solver travels along a graph cannot be sampled", "anchors": ["neutralocean/surface/omega.py:_omega_matsolve_poisson", "neutralocean/surface/omega.py:_omega_matsolve_gradient"]}
{"id": "C139", "title": "A well formed call of omega_surf returns a surface on the casts through the pinning point", "statement": "Call `omega_surf` with arrays of any number of horizontal dimensions and any vertical dimension, whose casts are land or have one block of data with increasing pressure, a list of edges with positive lengths, either formulation in upper or lower case with sparse solvers of bounded error, and an initial pressure (scalar, or array of the horizontal shape) that lies within the data of the pinning cast and not above its mixed layer. Then the call returns without exception. The result has the horizontal shape; at the pinning cast it is the point of that cast at the initial pressure; at every other cast it is NaN or a pressure with the interpolated salinity and temperature of that same cast.", "quantifier": "all arrays, grids, equations of state continuous on their range, numbers of passes (at least one if diagnostics are asked for), tolerances, options of wetting, and sparse solvers of bounded error", "why_tests_cant": "tests run a few oceans; an ocean on which some pass fails or returns a point that is not on its cast may always remain", "anchors": ["neutralocean/surface/omega.py:omega_surf", "neutralocean/lib.py:_process_casts"]}
{"id": "C140", "title": "A dict p_ml gives the mixed layer of each cast", "statement": "With `p_ml` a dict of keyword arguments of `mixed_layer`, `omega_surf` does the same as with the array `p_ml` that has at each horizontal position the base of the mixed layer of the cast of `S`, `T`, `P` there, whatever the vertical dimension of these arrays, including when the dict names this dimension.", "quantifier": "all arrays, vertical dimensions, dicts and options", "why_tests_cant": "the default vertical dimension hides the mix-up of casts and levels", "anchors": ["neutralocean/surface/omega.py:omega_surf", "neutralocean/mixed_layer.py:mixed_layer"]}
{"id": "C141", "title": "The initial surface may be an array of integers or floats", "statement": "`omega_surf` with an array `p_init` depends on the numbers in the array only, not on whether they are stored as integers or floats.", "quantifier": "all well formed calls", "why_tests_cant": "tests pass arrays of floats", "anchors": ["neutralocean/surface/omega.py:omega_surf"]}
{"id": "C142", "title": "The diagnostics of omega_surf describe the passes", "statement": "For a run on a well formed ocean with diagnostics, entry k of each diagnostic, for every pass k but the last, is: the number of casts wet after the pass; mean, root mean square and maximum over these casts of the absolute change of pressure made by the pass; the mean over the casts connected with the pinning cast of the absolute correction; the number of casts wetted by the pass. Hence the mean change is at most the root mean square, and this at most the maximum.", "quantifier": "all well formed oceans, initial surfaces, options and passes", "why_tests_cant": "tests look at a few numbers of one run", "anchors": ["neutralocean/surface/omega.py:omega_surf"]}
{"id": "C143", "title": "Results do not depend on units", "statement": "If salinity and temperature are given in other units (a positive factor and an offset, e.g. Kelvin for degrees Celsius), pressure or depth in another unit (a positive factor), and the equation of state returns density in another unit (a positive factor and an offset), with the tolerances and options converted likewise, then neutral tangent plane calculations, neutral trajectories, potential density and specific volume anomaly surfaces, wetting, neutrality errors and their norms, mixed layer pressures, Veronis densities and omega surfaces (surface, number of passes, diagnostics, exceptions) are the previous results converted to these units.", "quantifier": "every conversion with positive factors, every equation of state, every set of casts (with NaN and infinities), both interpolants, every tolerance, reference value, pinning point, grid, region and number of passes", "why_tests_cant": "a test compares two unit systems on one data set; that no comparison with a hidden absolute constant is made in any branch of the root finder, the interpolants, the limiters, the search and the convergence tests needs all inputs", "anchors": ["neutralocean/traj.py: ntp_bottle_to_cast, neutral_trajectory", "neutralocean/surface/isopycnal.py: potential_surf, anomaly_surf, _isopycnal", "neutralocean/surface/omega.py: omega_surf", "neutralocean/label.py: veronis", "neutralocean/fzero.py: brent, guess_to_bounds", "neutralocean/ppinterp/pchip.py: _pchip_coeffs_1, _pchip_coeffs_i", "neutralocean/bfs.py: bfs_conncomp1_wet_perim", "neutralocean/ntp.py: ntp_epsilon_errors_norms", "neutralocean/mixed_layer.py: mixed_layer"]}
{"id": "C144", "title": "A run of omega_surf can be interrupted and continued from the surface it returned", "statement": "Let a run of omega_surf on a well formed ocean, allowed n+m passes, make more than n of them. The run allowed n passes (all else equal) returns after n passes. If no point of its surface lies above the mixed layer, then omega_surf called with the pressures of that surface as p_init, allowed m passes, with ITER_MIN and the passes of wetting counted from there, returns exactly the surface of the uninterrupted run; the passes add up and the diagnostics of its passes are the remaining rows of the uninterrupted run. Without the condition on the mixed layer this fails: the first pass of a run never removes the part of the surface above the mixed layer, so interrupting changes the answer.", "quantifier": "every well formed ocean and grid (any number of casts, sizes of casts, land, linear or PCHIP), every initial surface (array or scalar), every n >= 1 and m, every window of wetting, every tolerance, both solvers with any error", "why_tests_cant": "Equality of two runs has to hold after any number of passes, from any surface; tests compare one run with one restart on one data set, and cannot see that salinity and temperature recomputed from the pressures always agree with those carried through the loop.", "anchors": ["neutralocean/surface/omega.py:omega_surf", "neutralocean/surface/_vertsolve.py:_vertsolve_omega"]}
{"id": "C145", "title": "Rolling, turning round and transposing a rectilinear grid", "statement": "On a rectilinear grid with two horizontal dimensions, rolling the salinities, temperatures, pressures, initial surface, pinning point and mixed layer along a periodic dimension, turning them round along any dimension, or exchanging the two dimensions, together with the lengths of the grid, does exactly the same to the surface that omega_surf returns, after the same number of passes, with either formulation; and more generally any renumbering of casts that takes links to links.", "quantifier": "every ocean of well-behaved casts and land, every rectilinear grid size, periodicity and lengths, every shift, every well-shaped initial surface through the pinning point, either formulation on each side, exact solvers, wetting off", "why_tests_cant": "a test compares one transposed or rolled grid; the sweep orders, breadth-first orders, matrices and edge directions all differ between the two calls, for every size and shape", "anchors": ["neutralocean/surface/omega.py:omega_surf", "neutralocean/grid/rectilinear.py:build_grid", "neutralocean/lib.py:_process_casts"]}
{"id": "C146", "title": "Omega surfaces of a density without thermobaricity are isopycnals, after one pass", "statement": "If density is a quadratic (in particular linear) function of salinity and temperature plus a function of pressure, then after one or more passes from any initial surface, omega_surf returns the isopycnal through the pinning point: every wet cast of the result is, within the tolerance of the vertical solver, at a pressure where the density without compression is that of the pinning point, up to the accuracy of the matrix solver; casts of the last region that are dry do not reach that density; and where the density increases with pressure, the surface agrees with potential_surf at any reference pressure and anomaly_surf with any reference salinity and temperature, to within the tolerances.", "quantifier": "every such density, every ocean of well-behaved casts and land, every grid, edge lengths, initial surface through the pinning point, wetting, mixed layer, number of passes, formulation and accuracy of the matrix solver", "why_tests_cant": "tests compare the two surfaces for one ocean to a loose tolerance; that every initial surface, grid and weighting leads to the same isopycnal in one pass is a statement about the matrix problem for every graph", "anchors": ["neutralocean/surface/omega.py:omega_surf", "neutralocean/surface/omega.py:_omega_matsolve_poisson", "neutralocean/surface/isopycnal.py:potential_surf"]}
{"id": "C147", "title": "When the correction of an omega surface eliminates all errors", "statement": "In a pass of omega_surf, the correction of the matrix problem makes every corrected neutrality error of a region vanish exactly when the errors add to zero around every closed path over edges of the region (no helicity); then the weights of the edges do not matter. This is always so for casts in a line (a hydrographic section), whatever the distances and the seawater.", "quantifier": "every region, weights, errors, closed path, formulation of the matrix problem; every section", "why_tests_cant": "A test can only sum errors around particular loops; the equivalence ranges over all closed paths of all graphs.", "anchors": ["neutralocean/surface/omega.py:_omega_matsolve_poisson", "neutralocean/surface/omega.py:omega_surf", "neutralocean/ntp.py:ntp_epsilon_errors"]}
{"id": "C148", "title": "Convergence of omega_surf where thermobaricity is weak", "statement": "Where the seawater depends on pressure weakly compared with the stratification of the casts (the change of the thermobaric coefficients over the range of the surface, times the lateral and vertical contrasts of salinity and temperature, divided by the stratification and weighted with the resistance of the grid, is a factor q below one), every pass of omega_surf keeps the same region, the corrections of density in pass k+1 are at most q^k times those of the first plus a level set by the accuracies of the matrix and vertical solvers, no cast moves by more than that over the stratification, the surface stays near the initial one, and the iterations stop by TOL_LRPD_MAV after the number of passes that this predicts.", "quantifier": "every grid, region, weights, stratified casts, density quadratic in salinity and temperature with thermobaric terms, initial surface, accuracies of the solvers, number of passes", "why_tests_cant": "Tests observe convergence on particular data; that the iterations contract is a statement about all passes from all initial surfaces.", "anchors": ["neutralocean/surface/omega.py:omega_surf", "neutralocean/surface/omega.py:_omega_matsolve_poisson", "neutralocean/surface/_vertsolve.py:_vertsolve_omega", "neutralocean/ntp.py:_ntp_epsilon_error1"]}
{"id": "C149", "title": "Without thermobaricity neutral trajectories and wetting follow isopycnals, whatever the way", "statement": "If density is a function of salinity and temperature plus a function of pressure, then neutral_trajectory stays on the isopycnal of its first bottle: at the i-th cast the density (less its pressure part) differs by at most i times the solver accuracy, and no cast that spans the isopycnal with that margin is lost. Two trajectories from the same bottle along any two routes meet every stratified cast at the same pressure, up to the solver accuracy; around a closed path a trajectory returns to its start. The surface omega_surf grows by wetting from a scalar p_init is the isopycnal through that bottle, up to the accuracy of the solves.", "quantifier": "every list of well formed casts of any length, every start pressure in the data of the first cast, linear and PCHIP interpolation, every equation of state that splits, every grid graph, every tolerance", "why_tests_cant": "a test runs a few routes on a few casts; that the route never matters is a statement about all routes and all oceans", "anchors": ["neutralocean/traj.py: neutral_trajectory, _ntp_bottle_to_cast", "neutralocean/bfs.py: bfs_conncomp1_wet_perim", "neutralocean/surface/omega.py: omega_surf"]}
{"id": "C150", "title": "Each pass of omega_surf lowers the neutrality errors and the returned surface minimises them", "statement": "A pass of omega_surf does not increase the weighted root sum of squares of the neutrality errors over the region (up to the accuracy of the solvers), and the surface returned at the end minimises it to first order: no change of the density of the surface lowers the sum of squares by more than a bound that vanishes with the number of passes and the accuracies.", "quantifier": "every ocean, grid, initial surface, equation of state, number of passes, solver", "why_tests_cant": "a test can run a few oceans; that passes never make the surface worse, and that no perturbation whatever of the result is better, are statements about all inputs and all perturbations", "anchors": ["neutralocean/surface/omega.py: omega_surf, _omega_matsolve_poisson", "neutralocean/surface/_vertsolve.py: _vertsolve_omega"]}
{"id": "C151", "title": "Wetted casts hold salinity, temperature and pressure together, also in floating point", "statement": "When wetting adds a cast to a surface, the cast receives a salinity, a temperature and a pressure that are all numbers, the pressure lying inside the data of the cast; it never receives a pressure without salinity and temperature, which would make all later passes of omega_surf produce NaN.", "quantifier": "every ocean in double precision, grid, surface, equation of state and interpolation", "why_tests_cant": "the failure needs three neighbours whose links end within one rounding error of the last bottle of a cast: no sampled ocean need contain it, and in exact arithmetic it does not exist", "anchors": ["neutralocean/bfs.py: bfs_conncomp1_wet_perim", "neutralocean/surface/omega.py: omega_surf"]}
{"id": "C152", "title": "Veronis density labels increase with pressure on a stable cast, and are accurate", "statement": "On a cast whose gradient of locally referenced potential density is positive everywhere, a deeper position has a larger Veronis density (with a common base and b > 0), so that labels can be compared; and the label differs from its definition by an error of second order in dp.", "quantifier": "all casts, equations of state, interpolations, base pressures, pairs of positions and step sizes", "why_tests_cant": "the order fails only between positions on the two sides of a change of the number of integration steps, however close; no sample of positions excludes that", "anchors": ["neutralocean/label.py: veronis, _int_dlrpd_dz, _int_x_k"]}
{"id": "C153", "title": "Basins that are not linked with the pinning cast have no influence on an omega surface", "statement": "Change the hydrography, the mixed layer pressure or the initial pressures of omega_surf at casts that no chain of grid edges, through wet or dry casts, joins with the pinning cast (lakes, other basins, padding). If the first call returns, then so does the second, after the same number of passes and with exactly the same salinity, temperature and pressure at all casts that are joined with the pinning cast. This includes the stopping tests, which average over the whole surface, and the wetting of dry casts.", "quantifier": "all arrays, grids, options (any wetting, mixed layer, formulation, stopping criteria), all ways of changing the unlinked casts, whatever the sparse solvers return, any arithmetic in which NaN behaves like NaN", "why_tests_cant": "an isolated region can leak into the result through the averages of the stopping test, the relabelling of the matrix problem, the shared queue of the search, or the NaN handling of the update; a test covers one lake in one ocean", "anchors": ["neutralocean/surface/omega.py", "neutralocean/bfs.py"]}
{"id": "C154", "title": "What omega_surf returns in floating point arithmetic", "statement": "In floating point arithmetic, a call of omega_surf with well formed arguments either raises a RuntimeError, and then the pinning cast has no bottle at the initial pressure, or returns after finitely many passes a surface with: at the pinning cast exactly the interpolated salinity and temperature at exactly the initial pressure; at every other cast the interpolated salinity and temperature of that cast at the pressure of the surface, that pressure within the data, or NaN pressure, or, only if there are passes that wet casts and only at casts with three or more links, NaN salinity and temperature at a pressure that exceeds the data by a few rounding errors. No pass loses a cast that it keeps in the problem to an inexact solver: whatever the matrix solver returns, the surface is made of such bottles.", "quantifier": "all arrays and grids, all lengths of the links (also zero, NaN, infinite), both formulations, all results of the sparse solvers, all options, every rounding to nearest, every equation of state that stays numeric on the domain", "why_tests_cant": "rounding decides at every cast and pass whether a root is found at the end of its bracket; a test runs a few casts and cannot reach the cast where the last bit puts the root outside the data", "anchors": ["neutralocean/surface/omega.py", "neutralocean/bfs.py", "neutralocean/ntp.py", "neutralocean/fzero.py"]}
{"id": "C155", "title": "Faulty arguments are refused with an exception", "statement": "omega_surf, potential_surf and anomaly_surf refuse faulty arguments: an unknown name in pin_cast or vert_dim, a profile of pressures of the wrong length, a pinning cast outside the grid, missing distances, links to casts that do not exist, an unknown formulation, p_init or p_ml of the wrong shape. Each fault gives a certain exception, and correct arguments never give one of these exceptions.", "quantifier": "all arguments, also those with several faults (the order of the checks)", "why_tests_cant": "there are infinitely many faulty calls, and a test of some cannot show that no correct call is refused", "anchors": ["neutralocean/surface/omega.py", "neutralocean/surface/isopycnal.py", "neutralocean/lib.py"]}
{"id": "C156", "title": "Levels without data do not change any surface", "statement": "Adding bottles without data to the casts (NaN above the first or below the last bottle, and with them a longer vertical axis), or cutting such bottles off, changes neither the surfaces of omega_surf, potential_surf and anomaly_surf, nor neutral trajectories, nor neutral tangent links: the same arrays, diagnostics and exceptions to the last bit.", "quantifier": "all arrays, shapes, pressures, places of the vertical dimension, interpolants, equations of state, options, in any arithmetic in which a sum with NaN is NaN", "why_tests_cant": "every padding of every cast in every arithmetic; a test adds a few NaN to one data set", "anchors": ["neutralocean/surface/omega.py", "neutralocean/surface/isopycnal.py", "neutralocean/traj.py", "neutralocean/ntp.py", "neutralocean/lib.py"]}
{"id": "C157", "title": "Bottles added on the line between their neighbours do not change any surface", "statement": "With linear interpolation, adding to the casts bottles whose salinity and temperature lie on the straight line between the neighbouring bottles (resampling onto a finer vertical grid) changes neither the surfaces of omega_surf, potential_surf and anomaly_surf, nor neutral trajectories, nor neutral tangent links. With PCHIP interpolation this is not so.", "quantifier": "all arrays, refinements that differ from cast to cast, equations of state, options; linear interpolation in exact arithmetic", "why_tests_cant": "a test refines one data set in one way, and sees equality only up to rounding", "anchors": ["neutralocean/surface/omega.py", "neutralocean/surface/isopycnal.py", "neutralocean/traj.py", "neutralocean/ppinterp/linear.py", "neutralocean/ppinterp/pchip.py"]}
{"id": "C158", "title": "Nothing moves where the water at one pressure is the same everywhere", "statement": "Where every cast has the same salinity and temperature at some pressure, a neutral connection from a bottle of that water at that pressure to any of the casts ends at exactly that pressure; a neutral trajectory stays there over any number of casts; and omega_surf started from that constant pressure returns the constant surface, with every bottle bitwise equal to the initial one, keeps all casts that are connected with the pinning cast below the mixed layer, and stops at the first pass at which it may.", "quantifier": "every set of casts, every bottle, every grid, pinning cast and setting of omega_surf, every rounding of double precision accuracy (found false for an equation of state that decreases downwards, as the default specific volume does: then a trajectory over identical casts drifts by a part of the tolerance at every cast)", "why_tests_cant": "a test has a few casts and a tolerance larger than the drift; the claim is exact equality, for all casts, after any number of links and passes and for every rounding", "anchors": ["neutralocean/traj.py: neutral_trajectory", "neutralocean/traj.py: _ntp_bottle_to_cast", "neutralocean/surface/omega.py: omega_surf", "neutralocean/fzero.py: guess_to_bounds", "neutralocean/fzero.py: brent"]}
{"id": "C159", "title": "Density and specific volume give the same links and surfaces", "statement": "On a stable cast a neutral link, and a potential surface, computed with an equation of state for the density and with one for the specific volume (isovalue inverted) both exist and their pressures differ by at most the accuracies of the two root searches: a small multiple of the tolerance plus the rounding errors over the stability.", "quantifier": "every cast with data in a box, every bottle, every pair of equations of state for the density and its inverse with bounded evaluation errors, every tolerance, every rounding of double precision accuracy", "why_tests_cant": "tests compare the two at a few points of one ocean and cannot bound the difference for all casts and equations of state; rounding errors of the two evaluations differ everywhere", "anchors": ["neutralocean/traj.py: ntp_bottle_to_cast", "neutralocean/surface/isopycnal.py: potential_surf", "neutralocean/eos/tools.py: make_eos", "neutralocean/fzero.py: guess_to_bounds"]}
{"id": "C160", "title": "A surface can be computed on every grid that is built", "statement": "A grid built for data of some shape - rectilinear with any periodicity, tripolar, tiles in any order of dimensions and either staggering, from a matrix of connections or from two matrices of lengths - with positive spacings is accepted by omega_surf on data of that shape, in both formulations: no exception of any kind, the surface has the shape of the data, goes through the given pressure at the pinning cast, and is on the casts wherever it exists.", "quantifier": "every horizontal size, every periodicity, every broadcastable positive spacing, every pattern of connections, every ocean with stable or land casts, every formulation and initial surface", "why_tests_cant": "tests build grids of a few sizes and use them on one ocean; that indices, lengths and orders of edges and distances agree for all sizes and patterns needs a proof, and one out of range is read from foreign memory by the compiled code", "anchors": ["neutralocean/grid/rectilinear.py: build_grid", "neutralocean/grid/tripolar.py: build_grid", "neutralocean/grid/xgcm.py: build_grid", "neutralocean/grid/graph.py: build_grid", "neutralocean/surface/omega.py: omega_surf"]}
{"id": "C161", "title": "Neutral links and trajectories keep their order", "statement": "Of two points of one cast, the deeper one has the deeper neutral point on the next cast, and of two neutral trajectories along the same casts the one which starts deeper stays deeper; their distance changes at most by the ratio of the largest and smallest vertical density gradients at each link, up to the accuracy of the solves.", "quantifier": "every pair of starting pressures, every number of casts, every equation of state and interpolation for which the stratification exceeds the thermobaric effect", "why_tests_cant": "tests follow a few trajectories on one ocean; crossing depends on the stratification and the lateral contrasts of each pair of casts and on rounding", "anchors": ["neutralocean/traj.py: ntp_bottle_to_cast", "neutralocean/traj.py: neutral_trajectory"]}
{"id": "C162", "title": "Omega surfaces pinned at different depths do not cross", "statement": "Of two omega surfaces of the same ocean, the one that is pinned deeper (or, with pinning casts of their own, in denser water) is deeper at every cast where both exist, up to the accuracy of the vertical solves, whatever their initial surfaces, grids, formulations and numbers of passes.", "quantifier": "every ocean of stable or land casts, every pair of pinning casts and pressures, every pair of grids, formulations, initial surfaces and solvers with bounded errors", "why_tests_cant": "tests compare a few surfaces of one ocean; crossing depends on the stratification, the lateral contrasts and the path of the iteration", "anchors": ["neutralocean/surface/omega.py: omega_surf", "neutralocean/surface/_vertsolve.py: _vertsolve_omega"]}
{"id": "C163", "title": "Errors of the hydrographic data move surfaces and trajectories by a bounded amount", "statement": "If the salinities and temperatures of the data change so that the density of the water at each pressure changes at most by kappa, then a potential density or anomaly surface moves at most by kappa, plus the change of its isovalue, over the stratification, plus the solver tolerances, and it still exists if it was at least so far from the surface and the bottom; a neutral trajectory changes by at most the accumulated effect of this on each link; and without thermobaricity a whole omega surface moves at most by twice kappa, plus the errors of the matrix solvers, over the stratification.", "quantifier": "all pairs of casts or oceans (with padding and land), both interpolants, all equations of state that satisfy the stated bounds, all isovalues, starting pressures, grids and numbers of casts", "why_tests_cant": "Quantifies over all perturbations of real-valued data; tests compare only few data sets and no exact reference is known.", "anchors": ["neutralocean/surface/_vertsolve.py: _make_vertsolve", "neutralocean/traj.py: ntp_bottle_to_cast", "neutralocean/traj.py: neutral_trajectory", "neutralocean/surface/omega.py: omega_surf"]}
{"id": "C164", "title": "PCHIP interpolation depends continuously on the data", "statement": "If all the values interpolated by PCHIP change at most by delta, the interpolant changes nowhere by more than (1 + 3 H / (2 h)) delta, where h and H are the smallest and largest spacings of the sites.  The limiters of the slopes, which switch between cases, do not make the interpolant jump.", "quantifier": "all casts (with NaN before and after), sites, values, perturbations and points", "why_tests_cant": "The slopes are defined by cases on signs and sizes of chords; a jump could be at any of infinitely many boundaries between the cases.", "anchors": ["neutralocean/ppinterp/pchip.py: _pchip_coeffs_1", "neutralocean/ppinterp/ppinterp.py: ppval_1"]}
{"id": "C165", "title": "Trajectories can be interrupted and resumed, bit for bit", "statement": "The part of a neutral trajectory from any of its casts on is exactly the trajectory that starts on this cast at the pressure reached there, and two trajectories of which the second starts where the first ends make exactly the trajectory over all the casts: salinity, temperature and pressure at a bottle found by a link are those with which a new trajectory from there starts.", "quantifier": "all casts, interpolants, equations of state, tolerances, starting pressures, points of interruption and floating-point arithmetics", "why_tests_cant": "Equality to the last bit at every point of interruption of every trajectory; a test shows it for some.", "anchors": ["neutralocean/traj.py: neutral_trajectory", "neutralocean/traj.py: ntp_bottle_to_cast"]}
{"id": "C166", "title": "Omega surfaces on a tripolar grid do not depend on which way round its columns are numbered", "statement": "On the grid that the tripolar grid builder returns, exchanging east and west of the ocean, the initial surface and the distances, or, for an even number of columns, rolling them by half the circle, exchanges the columns of the surface that omega_surf returns in the same way and changes nothing else; the poisson and gradient formulations may even be exchanged between the two runs.", "quantifier": "every tripolar grid, mirrored or rolled by half its columns, every ocean of well-behaved casts and land, distances and initial surfaces through the pinning point, exact solvers, wetting off", "why_tests_cant": "The claim relates two runs of the iteration over every grid size, ocean and distance; the fold makes other rolls change the ocean, so it must be known exactly which renumberings are harmless", "anchors": ["neutralocean/grid/tripolar.py: build_grid", "neutralocean/surface/omega.py: omega_surf"]}
{"id": "C167", "title": "A failed stabilize_ST can be called again", "statement": "When stabilize_ST raises RuntimeError at some cast, the casts before it are stabilised and the others are as they were; a second call on the same arrays, with the same or another method, tolerance or options, leaves the casts of the first call exactly as they are and handles the others as if there had been no first call. With the same method it changes nothing at all: it raises at the same cast again, or returns if the first call returned.", "quantifier": "all float64 arrays in C order with the vertical dimension last, every pattern of missing data, every cast at which the first call fails, every minimiser that reports success only at feasible points, any arithmetic in which a < b implies a - b < 0", "why_tests_cant": "the exception can occur at any cast, and a test sees only one history of failures and repetitions", "anchors": ["neutralocean/stability.py:stabilize_ST"]}
{"id": "C168", "title": "A Boussinesq ocean gives the surfaces of the ocean with hydrostatic pressures", "statement": "Calling with grav and rho_c on casts of depths is the same as calling without them on casts of the hydrostatic pressures 1e-4 grav rho_c z, with tolerances, reference depth, pinning depth, initial surface and mixed layer converted likewise: neutral tangent plane calculations, neutral trajectories, potential density and anomaly surfaces, mixed layers, Veronis densities and omega surfaces have the same salinity, temperature, isovalue, reference, errors, number of passes and exceptions, at the depths of these pressures.", "quantifier": "every accepted eos argument (name or function), every positive grav and rho_c, all casts with NaN and infinities, both interpolants, both formulations, all options", "why_tests_cant": "a test compares one ocean in the two descriptions; that depth and pressure are nowhere mixed up in any branch needs all inputs", "anchors": ["neutralocean/eos/tools.py:make_eos, make_eos_s_t, make_bsq", "neutralocean/traj.py:ntp_bottle_to_cast, neutral_trajectory", "neutralocean/surface/isopycnal.py:_isopycnal", "neutralocean/surface/omega.py:omega_surf", "neutralocean/label.py:veronis", "neutralocean/mixed_layer.py:mixed_layer"]}
{"id": "C169", "title": "Surface and trajectory calculations in different threads do not influence each other and leave the caller's arrays unchanged", "statement": "When several threads call omega_surf, the potential density and anomaly surface functions and neutral_trajectory at the same time, on the same arrays of salinity, temperature, pressure, distances and initial surfaces, then under every interleaving of their statements no array of the caller is ever changed, each call returns (or raises) exactly what it would have alone, and the arrays that it returns are new: they are not arrays of the caller nor arrays of another call.", "quantifier": "any number of threads, every interleaving of their statements, every mixture of the kinds of call, all inputs and options including shared initial surfaces", "why_tests_cant": "races and aliases show up only under some interleavings and sharings; a test runs a few schedules and cannot control the interleaving", "anchors": ["neutralocean/surface/omega.py:omega_surf", "neutralocean/surface/isopycnal.py:_isopycnal", "neutralocean/traj.py:neutral_trajectory", "neutralocean/surface/_vertsolve.py:_vertsolve, _vertsolve_omega", "neutralocean/bfs.py:bfs_conncomp1_wet_perim"]}
{"id": "C170", "title": "graph_binary_fcn evaluates the function on every edge (documented)", "statement": "Entry e of the result is the given function of the values at the two ends of edge e, and NaN if one of the two node numbers is negative.", "quantifier": "every list of edges with nonnegative and negative node numbers, float and integer node values, every function of two numbers", "why_tests_cant": "for all over graphs, values, types and functions; truncation and wrapped indices raise no error", "anchors": ["neutralocean/grid/graph.py:graph_binary_fcn"]}
{"id": "C171", "title": "The mixed layer depth computed in floating point is a pressure where the density difference is the threshold, up to a stated error", "statement": "Let e be the error of a computed density difference (2.1e-12 kg/m3 for jmd95, 6.5e-12 for jmdfwg06, 5.7e-11 for gsw, whose specific volume is inverted). For a cast on the oceanographic range, possibly with NaN above and below its valid bottles, whose exact potential density increases by more than 2e from bottle to bottle, mixed_layer with linear interpolation in floating point returns a pressure that differs by at most (15 dp + max|p|) 2^-53 from a pressure between two neighbouring bottles at which the exact, linearly interpolated density difference from the reference bottle is within e of the threshold. It returns NaN if the threshold is outside the exact range of differences by more than e, and only if it is outside or within e of an end.", "quantifier": "every cast, threshold, reference pressure and bottle, every rounding with relative error 2^-53 that is monotone and odd", "why_tests_cant": "the error bound has to hold for all data and for all roundings in the evaluation of a long polynomial; a test compares a few numbers with other floating point numbers", "anchors": ["neutralocean/mixed_layer.py:mixed_layer", "neutralocean/eos/jmd95.py:rho", "neutralocean/eos/gsw.py:specvol"]}
{"id": "C172", "title": "A neutral trajectory computed in floating point follows the exact one", "statement": "On a section of casts stratified with density slope at least m, neutral_trajectory computed with the rounding of double precision stays near the trajectory of exact arithmetic: if the exact trajectory is inside the data of every cast by at least the error bound, no link is lost to NaN, and the pressure on the i-th cast is within eps*(1 + rho + ... + rho^(i-1)) of the exact pressure, where eps is (a little more than twice) the solver tolerance plus the error of the computed density over m, and rho is the ratio of the greatest slope of the density along a cast to m. Salinity and temperature are those of the exact interpolants at the computed pressure up to the rounding of the interpolation.", "quantifier": "every rounding of double precision accuracy, equation of state with bounded error and slopes, interpolation kind, number of casts, data in the box, start pressure, tolerance and number of solver passes that is enough", "why_tests_cant": "Errors of all previous links feed the next one; a test compares a few sections with a looser solver, not with exact arithmetic.", "anchors": ["neutralocean/traj.py:neutral_trajectory", "neutralocean/traj.py:_ntp_bottle_to_cast"]}
{"id": "C173", "title": "Veronis density is accurate in floating point", "statement": "Computed in double precision with linear interpolation, the Veronis density label of a position within the data is a number, and it differs from its definition (potential density at the base position, plus b times the integral of the vertical gradient of locally referenced potential density between base and position) by at most the error of a second-order quadrature with steps dp, plus an explicit bound on rounding errors that grows with the number of bottles and of quadrature steps; the default base is the shallowest bottle", "quantifier": "every cast with finite increasing pressures and salinity and temperature finite down to the same bottle, every base and position within the data in either order, every scale b and reference pressure, every positive step dp with fewer than 2^52 steps between bottles, every equation of state whose computed values and derivatives are close to Lipschitz functions on a box around the data, every binary rounding to 53 bits", "why_tests_cant": "rounding errors enter the nodes, the interpolated values and slopes, the equation of state, each trapezoid, each partial sum and the final scaling; a test compares a few labels with a loose tolerance and cannot bound the accumulation for every cast", "anchors": ["neutralocean/label.py:veronis", "neutralocean/label.py:_int_x_k", "neutralocean/label.py:_int_dlrpd_dz", "neutralocean/label.py:pot_dens_1", "neutralocean/ppinterp/ppinterp.py:pval", "neutralocean/ppinterp/linear.py:linear_coeffs"]}
{"id": "C174", "title": "A step size that is not positive is refused by veronis", "statement": "veronis takes `dp`, the maximum interval of the trapezoidal integration. A `dp` of zero or below is never turned into a label: the call raises instead of returning a number.", "quantifier": "every cast with finite data above its bottom, linear or pchip interpolation, every equation of state, every base and position within the data, every reference pressure and factor, every step that is zero or negative", "why_tests_cant": "A test tries one negative step on one cast; whether it is refused depends on how the step compares with every bottle spacing between base and position.", "anchors": ["neutralocean/label.py:veronis", "neutralocean/label.py:_int_x_k", "neutralocean/label.py:_int_dlrpd_dz"]}
{"id": "C175", "title": "Levels without data do not change what is computed from a cast", "statement": "A cast is given with additional levels at which there is no data (NaN), above or below its bottles. mixed_layer gives the same pressure (with the same bottle as reference), count_unstable the same number, stabilize_ST the same new salinities and temperatures (and leaves the added levels alone), and veronis the same label.", "quantifier": "every cast; any number of levels without data above and below (below only, for veronis; NaN salinity, for stabilize_ST); linear and PCHIP interpolation; every equation of state that gives NaN for NaN; every threshold, reference pressure, reference bottle counted from the top, minimum stratification, integration step; in exact and rounded arithmetic (veronis: exact)", "why_tests_cant": "Padded and unpadded casts are different inputs for every test; whether a bottle next to the padding is treated differently depends on both.", "anchors": ["neutralocean/mixed_layer.py:mixed_layer", "neutralocean/stability.py:count_unstable", "neutralocean/stability.py:stabilize_ST", "neutralocean/label.py:veronis"]}
{"id": "C176", "title": "One bottle affects the interpolants only near it", "statement": "Of two columns of data at the same pressures, linear interpolation and PCHIP (and their derivatives of any order) give bitwise the same result at every pressure that is not near a bottle at which the data differ: for linear interpolation, a pressure that is not between the bottle above and the bottle below it; for PCHIP, a pressure that is not between the bottles two above and two below it. Within that reach they can differ.", "quantifier": "every pair of columns of any length with data at the same levels and increasing pressures; any number of bottles that differ, by any amounts; every pressure; every order of derivative; every rounding of the arithmetic", "why_tests_cant": "A test changes one bottle of one column by one amount; whether an error of one bottle spreads over the whole cast is a statement about all of them.", "anchors": ["neutralocean/ppinterp/linear.py:linear_interp_1", "neutralocean/ppinterp/pchip.py:pchip_interp_1", "neutralocean/ppinterp/ppinterp.py:ppinterp_1"]}
{"id": "C177", "title": "Data far from a surface or neutral link do not matter", "statement": "Two casts, maybe of different lengths, have the same bottles around some pressure: one bottle above and one below for linear interpolation, two for PCHIP (fewer if both casts begin or end there). The interpolants and their derivatives at that pressure are bitwise the same on both. A surface of constant potential density or density anomaly, or a neutral link, that is found there on one cast is found on the other, at the same pressure up to the accuracy of the solver, if the other cast is stably stratified. (Without stratification it can be found elsewhere.)", "quantifier": "every pair of casts; every number of bottles in common and not in common, with any data; linear and PCHIP interpolation; every order of derivative and rounding (interpolants); every equation of state, reference, isovalue, starting bottle and tolerance (surfaces and links, exact arithmetic)", "why_tests_cant": "Casts with some data in common are a relation between inputs; a test compares the results of one pair.", "anchors": ["neutralocean/ppinterp/linear.py:linear_interp_1", "neutralocean/ppinterp/pchip.py:pchip_interp_1", "neutralocean/surface/isopycnal.py:potential_surf", "neutralocean/surface/isopycnal.py:anomaly_surf", "neutralocean/traj.py:ntp_bottle_to_cast"]}
{"id": "C178", "title": "Veronis labels depend only on nearby bottles", "statement": "The Veronis density at a position, from a base position, depends only on the bottles between the two and the nearest bottle beyond each (for PCHIP, one more on each side). Two casts that share these bottles, however different they are elsewhere and however many bottles they have, get identical labels, for any step and equation of state; with the default base (the top bottle) nothing below the first (PCHIP: second) bottle under the position matters. With one shared bottle fewer the labels can differ.", "quantifier": "all pairs of casts of any lengths, all windows of shared bottles, both interpolants, all positions and bases in the window, all steps, coefficients, reference pressures and equations of state", "why_tests_cant": "a test compares a few pairs of casts; that data outside the window are never read into the result is a statement about all values there", "anchors": ["neutralocean/label.py:veronis", "neutralocean/label.py:_int_dlrpd_dz", "neutralocean/label.py:_int_x_k", "neutralocean/ppinterp/pchip.py:pchip_coeffs_1", "neutralocean/ppinterp/linear.py:linear_coeffs_1"]}
{"id": "C179", "title": "The mixed layer with PCHIP, and which bottles it depends on", "statement": "With PCHIP interpolation too, the mixed layer of a cast whose potential density increases downwards is NaN exactly when the threshold is outside the range of density differences, lies between the two bottles whose density differences enclose the threshold, is at a bottle whose difference is the threshold, never gets shallower with a larger threshold, and is never above the reference bottle for a threshold that is not negative. With either interpolant it depends only on the reference bottle and on the nearest bottles (one on each side, for PCHIP two) around the threshold.", "quantifier": "all casts of any length with data in one block and density increasing downwards, all thresholds, reference pressures and reference bottles, equations of state giving density or specific volume; all pairs of casts sharing a window of bottles", "why_tests_cant": "a test checks a few thresholds on a few casts; that no threshold overshoots the enclosing bottles and no far bottle matters is about all data", "anchors": ["neutralocean/mixed_layer.py:mixed_layer", "neutralocean/ppinterp/pchip.py:_pchip_coeffs_i", "neutralocean/ppinterp/ppinterp.py:ppinterp_1"]}
{"id": "C180", "title": "Bottles added on straight lines change Veronis labels only within the quadrature error", "statement": "Take a cast and a second cast that has all its bottles and further bottles whose salinity and temperature lie on the straight lines between them. With linear interpolation in exact arithmetic, the Veronis density of a position on the two casts differs by at most |b| zeta dp^2/6 times the length of the integration and twice a bottle spacing, where zeta bounds the second derivative of the integrand between bottles, and both have the same limit as the step size goes to zero. They are not equal at a given step size.", "quantifier": "all casts and refinements, equations of state with continuous derivatives, base and end positions within the data, step sizes, b and reference pressures", "why_tests_cant": "The bound and the limit quantify over all refinements and all step sizes; a test compares two casts at one step size and sees a difference it cannot attribute.", "anchors": ["neutralocean/label.py:veronis", "neutralocean/label.py:_int_x_k", "neutralocean/ppinterp/linear.py:linear_coeffs_1", "neutralocean/ppinterp/ppinterp.py:ppval_1_two"]}
{"id": "C181", "title": "Data far from a neutral trajectory do not matter", "statement": "Take a neutral trajectory over some casts and another list of casts that have the bottles near the trajectory in common with them (one above and below for linear interpolation, two for PCHIP, up to a margin that starts from zero and at each cast grows by the solver accuracy and the ratio of the density slopes). Whatever else the other casts contain, as long as they are stratified, the trajectory over them exists on all casts and stays within this margin of the first; its first point is the same.", "quantifier": "all sections of casts of any length, both interpolants, all equations of state with the stated slopes, all data outside the shared bottles", "why_tests_cant": "An error at one cast moves the start of the next link; that the errors cannot push the trajectory out of the shared bottles is an induction over casts and a relation between two runs.", "anchors": ["neutralocean/traj.py:neutral_trajectory", "neutralocean/traj.py:_ntp_bottle_to_cast", "neutralocean/ppinterp/pchip.py:pchip_coeffs_1", "neutralocean/ppinterp/linear.py:linear_coeffs_1"]}
{"id": "C182", "title": "A negative order of derivative is refused by the interpolation functions", "statement": "linear_interp_1, pchip_interp_1, ppval_1 and pval with d >= 0 evaluate the d-th derivative; with d < 0 they raise an exception. (Violated: on-the-fly interpolation raises IndexError within the data and returns NaN outside; with precomputed coefficients memory behind the row of coefficients is read.)", "quantifier": "every evaluation site, data, table of coefficients and integer order", "why_tests_cant": "A test of a few orders on one array sees whatever number is behind the array; that every negative order reads out of bounds needs all orders and lengths.", "anchors": ["neutralocean/ppinterp/ppinterp.py:pval", "neutralocean/ppinterp/ppinterp.py:ppval_1", "neutralocean/ppinterp/ppinterp.py:ppinterp_1", "neutralocean/ppinterp/linear.py:linear_interp_1", "neutralocean/ppinterp/pchip.py:pchip_interp_1"]}
{"id": "C183", "title": "Without thermobaricity potential and anomaly surfaces through a point are the same", "statement": "For an equation of state that is a function of salinity and temperature plus a function of pressure, potential_surf and anomaly_surf pinned at the same cast and pressure return exactly the same salinity, temperature and pressure everywhere, whatever reference pressure, or reference salinity and temperature (or none), is given. The same holds for surfaces given by corresponding isovalues.", "quantifier": "every ocean (casts with data in any places, or none), every grid shape, pinning cast and pressure within its data, every pair of references and kinds of surface, both interpolants, exact arithmetic", "why_tests_cant": "The statement compares calls over all references and all oceans; tests compare a few surfaces within tolerances and cannot show equality for every reference.", "anchors": ["neutralocean/surface/isopycnal.py:potential_surf", "neutralocean/surface/isopycnal.py:anomaly_surf", "neutralocean/surface/isopycnal.py:_choose_ref_isoval", "neutralocean/surface/_vertsolve.py:_zero_potential", "neutralocean/surface/_vertsolve.py:_zero_anomaly"]}
{"id": "C184", "title": "On water columns that are straight lines in pressure neither the interpolant nor the sampling matters", "statement": "If the salinity and the temperature of every cast are linear functions of pressure, then in exact arithmetic interp='linear' and interp='pchip' give exactly the same neutral links, neutral trajectories, potential density and specific volume anomaly surfaces, and omega surfaces; and so do any two choices of the levels at which the same columns are sampled between the same top and bottom pressure, with any number of levels of missing data above and below. Casts without data may be anywhere.", "quantifier": "every pair of data sets whose casts sample the same lines between the same end pressures (or are both without data), both interpolants on either side, every equation of state, tolerance, reference, pin, grid, solver and every option", "why_tests_cant": "A test compares two runs on one data set to a tolerance; equality of every iterate for all data on lines, all samplings and all equations of state needs a proof about both coefficient routines and everything that calls them", "anchors": ["neutralocean/ppinterp/pchip.py:pchip_coeffs_1_nonan", "neutralocean/ppinterp/linear.py:linear_coeffs_1", "neutralocean/ppinterp/lib.py:valid_range_1_two", "neutralocean/traj.py:neutral_trajectory", "neutralocean/surface/isopycnal.py:potential_surf", "neutralocean/surface/omega.py:omega_surf"]}
{"id": "C185", "title": "A potential density or anomaly surface can be recovered from any of its points", "statement": "Take any surface returned by potential_surf or anomaly_surf (given by an isovalue or by a pin), and the point where it meets one of the casts. The call with the returned reference, pinned at that cast and pressure, returns; its surface goes through that point exactly, with the same salinity and temperature; its isovalue differs from the first by at most L times the accuracy of the root finder; and on every cast its pressure differs from the first by at most that accuracy times (L/m + 2), where m and L are the least and the largest rate of change of the density with pressure along the casts. The surface exists again on every cast where the first is as far as this from both ends of the data.", "quantifier": "every ocean that is stably stratified (with respect to the reference), with casts of any lengths and casts without data, every grid shape, every reference, isovalue or pin, both kinds of surfaces, both interpolants, every cast used to recover the surface", "why_tests_cant": "A test can go there and back on a few casts; the bound must hold for the accumulated errors of two root finding passes on all casts of all oceans", "anchors": ["neutralocean/surface/isopycnal.py:potential_surf", "neutralocean/surface/isopycnal.py:anomaly_surf", "neutralocean/surface/isopycnal.py:_isopycnal", "neutralocean/surface/_vertsolve.py:_make_vertsolve"]}
{"id": "C186", "title": "Potential density and anomaly surfaces can be computed tile by tile", "statement": "Take any part of the casts of an ocean, in any order and in arrays of any shape with the vertical dimension anywhere. Called on it with the ref and isoval that were returned for the whole ocean, potential_surf and anomaly_surf return, and the salinity, temperature and pressure of each cast are bitwise those of the whole (except at the pinning cast of the whole, whose pressure had been set to pin_p). Called on a part that has the pinning cast, with the same options, they are bitwise the same on all of it, and so are the returned ref and isoval.", "quantifier": "all arrays, all sub-collections of casts and layouts of them, both kinds of surface, all references, isovalues and pins, both interpolants, any arithmetic", "why_tests_cant": "it quantifies over all ways of cutting up all data sets; a dependence of one cast on another (a guess reused, a shared tolerance) shows only on particular neighbours", "anchors": ["neutralocean/surface/isopycnal.py:potential_surf, anomaly_surf, _isopycnal", "neutralocean/surface/_vertsolve.py:_vertsolve"]}
{"id": "C187", "title": "How far potential density and anomaly surfaces move when their pin is moved", "statement": "Let the quantity that is constant on the surface (potential density, or density anomaly, for a given reference) increase with pressure on every cast at a rate between m and L. The surfaces pinned on one cast at pressures x and x' >= x both return; their isovalues differ by m to L times x' - x; where both are found on a cast, the second is deeper by at least m/L and at most L/m times x' - x, up to the accuracy of the root finder; and where the first is found at least that far above the bottom, so is the second.", "quantifier": "all casts with data of any length and spacing, any number of casts, both kinds of surface, both interpolants, all pins within the data", "why_tests_cant": "a test moves one pin in one ocean; the claim bounds every displacement in terms of the stratification", "anchors": ["neutralocean/surface/isopycnal.py:potential_surf, anomaly_surf, _choose_ref_isoval", "neutralocean/surface/_vertsolve.py:_vertsolve"]}
{"id": "C188", "title": "One tile on an xgcm grid is a rectilinear grid", "statement": "For one square tile of casts with dimensions (tile, j, i) and shifts to the left, connected with itself in the dimensions that are periodic, xgcm.build_grid returns the edges that rectilinear.build_grid returns for the same lengths, each from the same end and with the same distance and face length; only their order differs. omega_surf, given the casts of the tile on the one grid and the same casts without the dimension of tiles on the other, returns the same surface after the same number of passes (no wetting, exact solvers, either formulation).", "quantifier": "All tile sizes, choices of periodic dimensions, lengths, oceans, initial surfaces, formulations and options without wetting.", "why_tests_cant": "The two builders share no code, number edges differently, and obtain neighbours in different ways (padding by xgcm against index arithmetic); a test can compare them for single sizes, and then only if xgcm is installed.", "anchors": ["neutralocean/grid/xgcm.py:build_grid", "neutralocean/grid/rectilinear.py:build_grid", "neutralocean/surface/omega.py:omega_surf"]}
{"id": "C189", "title": "A grid can be written as matrices and read back", "statement": "A grid without loops and without repeated edges, with positive lengths, turned into two symmetric matrices (distances, face lengths) by edges_to_graph, given to graph.build_grid as dense arrays, comes back with the same links and lengths, up to the order and direction of the edges; omega_surf returns the same surface on it after the same number of passes (no wetting, exact solvers). Rectilinear grids with at least three casts in every periodic dimension are such grids; grids that list an edge twice (the fold of a tripolar grid) are not, their lengths are added.", "quantifier": "All grids of the stated kind, oceans, initial surfaces, pins, formulations and options without wetting.", "why_tests_cant": "The two functions are inverse to each other only through symmetry tests, upper triangles and lists of nonzero entries; whether every edge comes back with its own two lengths, for every graph, is not settled by trying some.", "anchors": ["neutralocean/grid/graph.py:edges_to_graph", "neutralocean/grid/graph.py:build_grid", "neutralocean/surface/omega.py:omega_surf"]}
{"id": "C190", "title": "A rectilinear grid may be cut into square tiles", "statement": "An ocean given as a rectangle of mj by mi square tiles (dimensions (tile, j, i), shifts to the left, each tile connected with those next to it and, in periodic dimensions, around the rectangle) has, by xgcm.build_grid, the edges between corresponding casts that rectilinear.build_grid lists for the whole rectangle, each from the same end and with the same distance and face length; only the order differs. omega_surf returns the same surface for both, cast by cast, after the same number of passes (no wetting, exact solvers, either formulation).", "quantifier": "All tile sizes, numbers of tiles in either direction, choices of periodic dimensions, lengths, oceans, initial surfaces, formulations and options without wetting.", "why_tests_cant": "The numbering of casts, the order of edges and the way neighbours across tile edges are found all differ between the two builders; that no link across a tile edge is lost, doubled or given the wrong lengths must hold for every size and number of tiles.", "anchors": ["neutralocean/grid/xgcm.py:build_grid", "neutralocean/grid/rectilinear.py:build_grid", "neutralocean/surface/omega.py:omega_surf"]}
{"id": "C191", "title": "Links of the grid to land do not matter", "statement": "Call omega_surf on two grids over the same casts that have the same links, with the same lengths and in the same order, between casts with at least two consecutive data, and any links whatever to casts without. Then both calls do the same: the same surface to the last bit, after the same number of passes, or the same exception. In particular a dimension of a rectilinear grid may be declared periodic or not if there is land along one of its two ends.", "quantifier": "every hydrography, grid, pinning cast at sea, initial pressure or surface, formulation and result of the matrix solvers, any wetting and number of repetitions, and any arithmetic in which NaN behaves like NaN", "why_tests_cant": "Land casts do enter the queue of the wetting search and its repetitions, and their links enter neighbour lists and edge lists; that none of this ever changes a result must hold for every coast line.", "anchors": ["neutralocean/surface/omega.py:omega_surf", "neutralocean/bfs.py:bfs_conncomp1_wet_perim", "neutralocean/grid/rectilinear.py:build_grid"]}
{"id": "C192", "title": "Rows of land may be added to the ocean or cut off", "statement": "Take an ocean and a larger one with the same casts in the first rows, only land in the rows after them, and the same links, lengths included and in the same order, between casts at sea. omega_surf with the same options and pin returns on one exactly if it returns on the other, after the same number of passes, and salinity, temperature and pressure of the surface are the same in the shared rows. In particular rows of land after the last row of a rectilinear grid, open in that dimension, change nothing.", "quantifier": "every ocean of any number of horizontal dimensions, every number of rows added, every grid, all options including a mixed layer, every pin at sea, a number or an array as initial pressure, every solver, exact or rounded arithmetic", "why_tests_cant": "domains with margins of land of every width cannot be tried", "anchors": ["neutralocean/surface/omega.py:omega_surf", "neutralocean/bfs.py:bfs_conncomp1_wet_perim", "neutralocean/grid/rectilinear.py:build_grid"]}
{"id": "C193", "title": "Seas behind land and data on land do not matter", "statement": "Call omega_surf on two oceans over the same grid that agree on a set of casts with the pinning cast in it, such that in both every link of the grid between the set and the rest touches land, a cast whose uppermost run of data is shorter than two. Whatever the rest holds, another sea or nothing, if the first call returns then so does the second, after the same number of passes and with the same surface on the set. In particular it does not matter what the casts on land hold: NaN, or a single bottle above a gap.", "quantifier": "every pair of oceans and every set of casts bounded by land, every grid whether or not its links cross land, all options including a mixed layer and wetting, a number or an array as initial pressure, every solver, exact or rounded arithmetic", "why_tests_cant": "every coastline, and everything that can lie behind it, cannot be tried", "anchors": ["neutralocean/surface/omega.py:omega_surf", "neutralocean/bfs.py:bfs_conncomp1_wet_perim", "neutralocean/surface/omega.py:_omega_matsolve_poisson"]}
{"id": "C194", "title": "An ocean may be cropped along land", "statement": "Crop an ocean to its first rows, where every link of the grid between these rows and the others touches land. omega_surf with the same options and pin returns on the cropped ocean exactly if it does on the whole, after the same number of passes and with the same salinity, temperature and pressure of the surface in the rows kept. In particular an ocean on a rectilinear grid, open in its first dimension, may be cropped before or after any row of land, whatever lies beyond.", "quantifier": "every ocean of any number of horizontal dimensions, every grid, every number of rows kept, all options including a mixed layer and wetting, every pin at sea in the rows kept, a number or an array as initial pressure, every solver, exact or rounded arithmetic", "why_tests_cant": "whether a regional domain gives the surface of the global one cannot be tried for every region", "anchors": ["neutralocean/surface/omega.py:omega_surf", "neutralocean/bfs.py:bfs_conncomp1_wet_perim", "neutralocean/grid/rectilinear.py:build_grid"]}
{"id": "C195", "title": "Margins of land on any side of the ocean do not change the surface", "statement": "Take an ocean on an open rectilinear grid, and a larger one that holds the first somewhere inside and is land for the rest, with the same distances between the casts of the first: land may be added before the first row, after the last, before the first column and after the last. omega_surf returns on the first exactly if it returns on the larger, pinned at the same cast (whose indices are shifted), and then after the same number of passes, with the same salinity, temperature and pressure on every cast of the first, to the last bit. More generally for any grid of any shape whose casts are found in the larger in the same order, with the same links between casts at sea.", "quantifier": "all data, options, equations of state, formulations, wetting settings, initial pressures or surfaces, widths of the four margins, pinning casts, results of the matrix solvers, and arithmetics in which NaN behaves like NaN", "why_tests_cant": "all casts are renumbered, so every array, queue and matrix of the run has other indices; a unit test compares two grids", "anchors": ["neutralocean/surface/omega.py:omega_surf", "neutralocean/bfs.py:bfs_conncomp1_wet_perim", "neutralocean/grid/rectilinear.py:build_grid"]}
{"id": "C196", "title": "An ocean may be cropped to a window along land", "statement": "Crop an ocean on an open rectilinear grid to any rectangular window of rows and columns, where of any two neighbouring casts, one in the window and one not, one is land; beyond that coast there may be other seas. omega_surf, pinned at the same cast (whose indices are shifted), returns on the window exactly if it does on the whole, after the same number of passes and with the same salinity, temperature and pressure of the surface in the window, to the last bit. If the initial surface is an array, interpolation to it must raise nowhere in the whole.", "quantifier": "all data, options, equations of state, formulations, mixed layers, wetting settings, initial pressures or surfaces, windows, pins at sea in the window, results of the matrix solvers, and arithmetics in which NaN behaves like NaN", "why_tests_cant": "a marginal sea run on its own domain and within the global one gives every array of the run other sizes and indices; a unit test compares two domains", "anchors": ["neutralocean/surface/omega.py:omega_surf", "neutralocean/bfs.py:bfs_conncomp1_wet_perim", "neutralocean/grid/rectilinear.py:build_grid"]}
