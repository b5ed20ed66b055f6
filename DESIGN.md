# Formal model of neutralocean — design

Everything is about the pinned source in `/repo` (package `neutralocean`), read as text.
The model is Lean 4 (`/verif/lean`), one module per source file or group of functions.
`lake build` in `/verif/lean` checks everything.

## Modelling decisions

* **Floats.**  Functions that work on `float64` data are written once, generically over a class
  `FloatLike F` (operations `+ - * / abs`, literals, comparisons as `Bool`, `isNaN`, `isFinite`, `nan`)
  with *no laws*.  Two kinds of theorem follow:
  - *rounding-independent* theorems, for every `FloatLike` type satisfying the few laws named in the
    theorem (e.g. only commutativity of `+`), so IEEE doubles are covered as far as they satisfy those laws;
  - *exact-arithmetic* theorems, for the instance `Fl α` = `nan | +inf | -inf | fin x` with `x` in an
    arbitrary linearly ordered field `α` (ℚ for runnable examples, ℝ for calculus);
  - *rounded-arithmetic* theorems (C118–C125, …), for the instance `Rfl rnd` (`Model/Rounding`): the result of every
    operation and literal is rounded by `rnd`, of which only the standard model is assumed (`StdRound`: relative error
    at most 2^-53, monotone, odd).  `Rounding53.rnd53_std` shows that binary64 round-to-nearest-even with unbounded exponent
    is such an `rnd`, over ℚ and over ℝ (`rndNear_std`).  C124–C125 also use `BinRound` (idempotent, exact for 1 and for
    scaling by 2), likewise shown for round-to-nearest-even (`rndNear_bin`).  Overflow is not modelled; gradual underflow only in the witness for C120 (`rnd64`).
  Signed zero is not modelled.
* **Arrays** are a length plus a function on `ℕ`; in-place mutation is functional update.
* **Loops** are structural recursion on a fuel argument or folds; where the Python loop is `while`, a
  separate theorem shows a sufficient amount of fuel always exists (termination).
* **Exceptions** are values (`Except`, or an outcome type).
* **External calls** (eos, numba, numpy reductions, `spsolve`, `lsqr`, `scipy.optimize.minimize`, xgcm padding)
  are parameters; what is assumed of each is a hypothesis of the theorem that uses it.
* **Specifications** are written without the model's helpers: Mathlib derivatives, reachability
  (`Relation.ReflTransGen`), sums over `Finset`, order inequalities, list membership.

## Plan per property

| id | modelled | how proved |
|----|----------|-----------|
| C01–C03 | `brent` loop, branch by branch, with division-by-zero as an outcome | loop invariant (opposite sign classes at b and c, both inside [a,b]); bracket length strictly decreases by at least t/2; IVT for continuous f |
| C04–C06 | `guess_to_bounds`, `brent_guess` | loop invariant; geometric growth bounds the passes; composition |
| C07 | same | documented bound is false: concrete witness; the true bound (twice) is C06 |
| C08 | `valid_range_1(_two)` | induction over index loops |
| C09–C11, C15–C17 | `pval`, `ppval_1…`, `ppinterp_1…`, `linear_*` | searchsorted specification, Mathlib `Polynomial.derivative` |
| C12–C14 | `_pchip_coeffs_1`, `_pchip_coeffs_i` | slope bounds 0≤d≤3δ, cubic Hermite inequality; syntactic equality up to commutativity |
| C18 | `edges_to_csr` as array program | refinement to filter over the edge list |
| C19–C23 | grid builders as index arithmetic | membership iff adjacency; round trips; negative results by witness or for all sizes |
| C24 | `aggsum`, `divergence` | Finset sums |
| C25–C26 | `bfs_conncomp1` with explicit array queue | invariants over loop, `ReflTransGen` |
| C27–C32 | `bfs_conncomp1_wet`, `bfs_conncomp1_wet_perim`, NTP link as a parameter and then instantiated | invariants; witnesses for the false documented claims |
| C33–C35 | ntp errors and norms | algebra, Cauchy–Schwarz; missing-key error as value |
| C36–C38 | ntp_bottle_to_cast, neutral_trajectory | composition of C06 with interpolation continuity |
| C39–C40 | vertical solvers | same |
| C41–C44 | omega main loop with solver as parameter | invariant over iterations; witnesses |
| C45–C46 | pinned graph Laplacian | quadratic form, connectivity, normal equations |
| C47–C48 | option checking, `_isopycnal` | case analysis; witness |
| C49 | Veronis integral | prefix-sum form |
| C50–C53 | equations of state over ℝ | `HasDerivAt`, ring |
| C54 | make_bsq | chain rule |
| C55 | make_pp | case analysis over strings |
| C56–C57 | lib helpers with view aliasing | induction; witness |
| C58 | adjacency to edges | case analysis |
| C59–C60 | stability | oracle hypotheses; aliasing model |
| C61–C62 | mixed_layer, synthocean | monotone inverse; arithmetic |
| C63 | the same `brent` loop over any `FloatLike` | invariant that uses only that comparison with 0 is a function of the value: rounding cannot break the bracket |
| C64, C65 | `valid_range_1`, `ntp_bottle_to_cast` on NaN bottles | witness; endless loop shown for every amount of fuel |
| C66, C67 | `bfs_conncomp1_wet` | invariant; witness |
| C68, C69 | `edges_to_graph`, `graph_binary_fcn` | sums over the edge list |
| C70–C72 | `_process_vert_dim`, `_contiguous_casts`, `_process_casts`, `_process_pin_cast`, `_process_wrap` | index arithmetic over shapes of any rank |
| C73, C74 | tripolar and xgcm edge lists | index arithmetic, all sizes |
| C75, C76 | `_isopycnal` | composition of C39 with the evaluation at the pin |
| C77–C81 | omega matrix problem and one pass of the loop | quadratic form; invariant; witness |
| C82–C85 | `veronis_density` | trapezoidal sums, Riemann–Stieltjes style convergence, witness |
| C86–C89 | `stabilize_ST`, `count_unstable` | calculus; loop invariant |
| C90, C91 | `mixed_layer` | case analysis; witness |
| C92–C94 | equations of state | propagation of NaN through generated expressions; interval arithmetic on polynomials (`Lemmas/PolyBox`) |
| C95, C96 | `make_eos`, `make_bsq`, `_process_eos` | case analysis |
| C97 | `make_pp` signatures | case analysis |
| C98, C99 | `synthocean` | arithmetic, trigonometric sums |
| C100, C101 | PCHIP slopes; lines and units | algebra over any ordered field |
| C102 | `_build_im1_jm1` | index arithmetic, padding as parameter |
| C103 | mixed layer in the omega loop | invariant over passes; witness |
| C104, C105 | front end of `omega_surf` | shapes of any rank; witness |
| C106–C108 | xarray containers | labels as data; witnesses |
| C109, C110 | `lru_cache`, `_make_vertsolve` | all histories; all interleavings of any number of threads |
| C113–C115 | vectorised functions (`guvectorize`, `vectorize`) | specification of broadcasting by dimensions; all shapes |
| C116 | `eos/gswc.py` | chain rule; the GSW library is a parameter |
| C117 | `count_unstable` on arrays | exchange of sums over levels and casts |
| C118–C120 | `brent`, `guess_to_bounds`, `brent_guess` in rounded arithmetic | relative-error calculus (`RelErr`) for tolerance, midpoint and step; the same loop invariant and measure; underflow witness |
| C121–C123 | linear and PCHIP interpolation in rounded arithmetic | relative errors for slopes and weights, absolute errors (`ErrB`) through the Hermite coefficients and Horner's rule; the limiter is 1-Lipschitz and signs are exact |
| C124–C125 | `ntp_bottle_to_cast`, `neutral_trajectory`, per-cast vertical solves in rounded arithmetic | C118–C123 composed: iterates stay in the data range, so all values are numbers; every pressure visited is representable (closure of the loops under +, −, min, max); intermediate value theorem and Lipschitz bounds of the exact equation of state for the accuracy |
| C126 | geometry of `synthocean` | closed forms; areas as iterated integrals of r² cos φ |
| C127 | wetting window of `omega_surf` | C29 for the passes inside, connected component for those outside, induction over passes |
| C128 | units of `TOL_LRPD_MAV` | weighted means of absolute values; violated, with witness |
| C129 | equations of state in rounded arithmetic | a domain of (magnitude, error) pairs; the same polynomials read in it give the bounds, evaluated by the kernel; soundness of each operation proved once |
| C130 | derivative bounds, Lipschitz constants, solves with the library's equations of state | polynomial bounds on a box, mean value inequality, then C125 with the constants of C129 |
| C131 | surfaces of stably stratified casts ordered by isovalue; existence iff isovalue between end values | exact zeros of C39/C40 compared through monotonicity of density along the interpolants; monotone data give monotone interpolants piece by piece |
| C132 | a neutral link, and a whole trajectory, followed back returns to the start within a bound | two exact neutral points of C36 compared through lower and upper slopes of the density difference; induction over the casts in reverse order |
| C133 | count_unstable and the test of stabilize_ST in rounded arithmetic | errors of the two densities at the rounded mean pressure (C129, C130), then errors of the two roundings of the quotient |
| C134 | ghost list of NTP calculations of bfs_conncomp1_wet | sublist invariant over the neighbour loop and the queue loop |
| C135 | neutrality error of an edge in rounded arithmetic with the three equations of state | derivatives of C129 at the rounded means, bounds of C130, then the roundings of differences, products and sum |
| C136 | Model/Omega, Model/OmegaMat | Props/OmegaSym: the normal equations are a sum of flows, invariant under renumbering and turning of edges; uniqueness of the balanced correction gives equal corrections; passes, loop and result are carried over by the permutation |
| C137 | Model/Omega, Model/VertSolve, Model/OmegaMat | Props/OmegaTotal: invariant "every point is on the range of the equation of state or dry"; region posed by connectivity; vertical solve total by continuity (C03); wetting by C29 with neutral links (`perim_neutral`); induction over passes |
| C138 | omega.py matrix solvers, over an arbitrary solver with bounded residual | per-edge current bound from summing the imbalance over an upward closed set of casts; induction on the route; `cost_split` for least squares |
| C139 | omega.py front end and iteration, `Model/OmegaFront.lean` | configuration of the call is a well formed ocean (C137); graph from `edgesToCsr_mem`; solver from C138 |
| C140 | omega.py 246-255, `Model/OmegaArgs.lean` | unfold the front end; rows of the matrix are the casts iff vert_dim is the last dimension; witness |
| C141 | omega.py 332-344, `Model/OmegaArgs.lean` | corollary of C139 with no passes; witness for all well formed calls |
| C142 | omega.py 418-466, `Model/Omega.lean` | NaN-skipping mean and maximum as sums over the finite set of wet casts; `PassSpec` of C137; Cauchy-Schwarz for the order |
| C143 | `Change` (affine conversion of S, T, ρ, scaling of P) applied to casts, options and results of the modelled functions | Every operation of `Fl` commutes with positive scaling; lifted through `brent`, `guessToBounds`, PCHIP and linear coefficients, searches, matrix problems and the omega loop by induction |
| C144 | `Model/Omega.lean`; `continued`, `passes`, `pressures` in `Props/OmegaRestart.lean` | invariant that a surface after a pass holds the interpolated salinity and temperature at its pressures and is all NaN where dry (from C137), so that `init` of its pressures is the surface itself; the loop split at pass n; the loop with shifted pass numbers. Witness for the mixed layer by evaluation |
| C145 | omegaSurf (Model/OmegaFront), rectGrid (Model/Grid) | corresponding calls have corresponding casts and edges up to direction, so omega_relabel (C136) applies to the runs; roll, flip and transpose of the rectilinear grid take links to links (Props/OmegaGridSym) |
| C146 | omega, omegaSurf (Model/Omega, Model/OmegaFront), vertsolve1 (Model/VertSolve) | the neutrality errors are the differences of a potential, so the unique pinned solution of the matrix problem is the difference from the density at the pinning point; the vertical solve then finds that density (Props/OmegaLinear) |
| C147 | matsolve (Model/OmegaMat), omega pass (Model/Omega) | potential along paths; if some correction has zero cost, the minimiser has, and they differ by a constant (Props/OmegaHelicity) |
| C148 | omega run (Model/Omega), neutrality errors (Model/Ntp) | change of the errors in a pass = change of density at the old pressure + a thermobaric remainder; sensitivity of the matrix problem along routes; induction over passes with the displacement so far (Props/OmegaConverge) |
| C149 | `neutral_trajectory`, wetting (Traj, Bfs, Omega models) with a density that splits | each link is exact up to the accuracy of brent, so it keeps the density up to U times it; induction along the path; for wetting the mean of the neighbours' links lies between two of them and the cast is monotone; induction over the order of wetting |
| C150 | passes of `omega_surf` with thermobaricity (Omega, OmegaMat models) | violated: witness with density s (125 - p) / 25; `_partial`: the new errors differ from the errors corrected with the least squares solution by the accuracies and thermobaric terms (Minkowski); the returned surface: small remaining correction, orthogonality of the least squares solution |
| C151 | wetting with `Ocean.ofCasts` over the rounded numbers `Rfl rnd`; `omega` with Gaussian elimination for spsolve | violated: witness evaluated in double precision by the kernel; `_partial`: rounding error bounds of the mean by induction over the links; one, two and four links exact (integer arithmetic on mantissas, ties to even) |
| C152 | label.py, Label model | violated: explicit cast for every dp (two positions with one and two steps to the bottle below); `_partial`: error of the trapezoidal rule from the distance to chords (no derivatives needed), sums over pieces telescope; exact positivity below a bottle |
| C153 | whole model of `omega_surf` (`Omega`, `Bfs`, `OmegaMat`), API `omegaSurf` | simulation between two runs: same queue, perimeter and matrix problem on the closed part, NaN outside it after the first update, so equal averages (`omega_local`, `omegaSurf_local`) |
| C154 | whole model of `omega_surf` over `Rfl rnd` (rounded arithmetic) | induction over passes with the invariant `FineR` (bottle of its cast, NaN pressure, or lost as in C151), from root finding in rounded arithmetic (`moved_rounded`, `perim_core`); API form `omegaSurf_float` |
| C155 | front ends `Omega.omegaSurf`, `Isopycnal.isoSurf`, `Lib.processCasts`, `processPinCast` | each exception iff its fault (`omegaSurf_errors_partial`); false for `p_ml` of another shape |
| C156 | spec `Same.NanPad` on casts; `Same.SameCast` (casts the code reads alike) | every reader of casts sees only the trimmed cast; then congruence through all passes |
| C157 | spec `Same.OnChords`, `Same.Refines` | the interpolants are equal as functions (`OnChords.interp`), then as for C156; counterexample for PCHIP |
| C158 | `Fzero.solveRoot`, `Traj.ntpBottleToCast`, `neutralTrajectory`, `OmegaMat.poisson`, `gradient`, `Omega.omega`; spec `Traj.FlatCast`, `Omega.Level` | the root finder brackets from the left and returns a guess that is exactly a root (`solveRoot_exact`); zero errors give a zero correction; invariant over passes; counterexample in double precision for specific volume; `omegaSurf_flat_partial` states it for calls with arrays |
| C159 | `Traj.ntpBottleToCast`, `VertSolve.vertsolve1` with `zeroPotential` | `Accurate.stable` for both; separation of inverses (`inv_sep`) |
| C160 | `Grid.rectGrid`, `triGrid`, `xgcmBuild`, `Graph.buildGridMat`, `buildGridDict` with `Omega.omegaSurf` | each builder returns edges in range and lists of equal lengths (`links_of`), then `omegaSurf_total` (C139) |
| C161 | `Traj.ntpBottleToCast`, `Traj.neutralTrajectory` | exact zeros from `ntp_spec` compared through the slopes of the midpoint density difference; induction over the casts; witness in double precision by `decide +kernel` |
| C162 | `Omega.omegaSurf`, `Omega.omega` | both surfaces have the density of their pinning point (C146), which increases along every cast; witness in double precision by `decide +kernel` |
| C163 | casts of `vertsolve1`, `ntpBottleToCast`, `neutralTrajectory`, `omegaSurf` | Props/Perturb: `Close` bounds the density difference of two casts; roots of two functions that differ by at most κ, one of slope at least m, are within κ/m; induction along the trajectory; `omegaSurf_isopycnal` for both oceans |
| C164 | `pchipInterp1` | Props/PchipLip: harmonic means and clipped three-point slopes are Lipschitz with constant 3, Hermite weights of the slopes sum to at most 1/4 |
| C165 | `neutralTrajectory`, `trajStart`, `ntpBottleToCast` | Props/TrajResume: a link and the start of a trajectory evaluate the same tables at the same pressure; induction over the casts; any `FloatLike` |
| C166 | `triGrid`, `omegaSurf` | Props/TripolarSym: the links of the grid as a specification (`triLinks`); a symmetry of the columns that keeps the fold (`TriSym`: mirror, roll by half the circle) maps links to links; C145's relabelling theorem |
| C167 | `stabilizeST`, `castStep` | Props/StabilizeRetry: what a call leaves in memory up to and after the cast at which it fails; a stabilised cast meets the minimum, so the second call skips it; casts from the failure on are unchanged, so they are handled as before |
| C168 | `makeEos`, `makeEosST`, `makeBsq` with the functions of C143 | Props/Boussinesq: the Boussinesq equation of state at a depth is that at the hydrostatic pressure; C143 with pressures as another unit of depth |
| C169 | Model/Threads: `Instr`, `Thread.step`, `Sys.run`; `omega_surf`, `_isopycnal` and `neutral_trajectory` as programs over named buffers (`OmegaThread.prog`, `IsoThread.prog`, `TrajThread.prog`) | Props/Threads: a thread that writes only into buffers it allocated simulates its run alone under every schedule; Props/OmegaThreads: these programs have this discipline and, alone, compute `omega`, `isopycnal` and `neutralTrajectory` |
| C170 | Model/GraphFcn: `index` (numba's negative indices), `store` (type of the result array), `graphBinaryFcn` | Props/GraphFcn: edge by edge; violated by negative node numbers and by integer values |
| C171 | `mixedLayer` over `Rfl rnd`, with the computed equations of state | The computed density differences are close to the exact ones and still increase, so `linear_rounded` applies; the line through computed sites is then compared with the exact profile |
| C172 | `neutralTrajectory` over `Rfl rnd` against the exact trajectory | Induction over the casts: a link from a bottle within d of the exact one is within rho*d + eps of the next, by `ntp_accurate` and the slopes |
| C173 | `Label` over rounded arithmetic, linear interpolation | `veronis_rounded` (Props/LabelRound.lean): error of each node, of the integrand, of each trapezoid (`term_err`) and induction over the sums; the number of steps is rounded too, so the quadrature error has `1/11` for `1/12` |
| C174 | `Model/Label.lean` (`intXK`: division by dp, number of points from the ceiling) | refused for 0 and for negative steps small against the spacing; violated otherwise (`veronis_negative_step_accepted`) |
| C175 | `Model/MixedLayer`, `Model/Stability`, `Model/Label` on a cast and a padded cast (`Same.NanPad`) | Props/PadTools: equality in any arithmetic with the laws of NaN; `count_unstable` with an interpolant violates it |
| C176 | `Model/Interp` on two columns with the same pressures (`ColR`) | Props/InterpLocal: the piece found is the same, and its coefficients read only the bottles at `i-1 .. i+2` |
| C177 | `Model/Interp`, `Model/VertSolve`, `Model/Traj` on two casts that share bottles (`Shares`) | Props/Window: same piece and coefficients in any arithmetic (`GCol.window`); an exact root in the window is a root of the other cast, unique by stratification |
| C178 | `Label.veronis` on two casts with a window of shared bottles (`Label.Shares`) | the coefficient rows of the window agree (`pchip_shift`: slopes read neighbours only), the pieces found correspond (`pieceEnd_shares`), so every term of the integral agrees |
| C179 | `MixedLayer.mixedLayer` with `pchipInterp1` | shape preservation (C12) of pressure as a function of the density difference, piece by piece; windows of shared bottles as in C177 |
| C180 | as C152, two casts related as in C157 | a piece of the finer cast lies in one piece of the coarser (`chords_piece`), so the interpolants and their slopes agree (`refine_ppval`) and the same gradient and curvature bound serve both; then `veronis_accuracy` twice, and `veronis_converges` for the limit |
| C181 | as C163 and C177 | induction over the casts: the water at the second trajectory is the same on both casts (`Shares.at`), the link from there on the first cast is near the first trajectory (`ntp_perturbed` with no perturbation), and the link on the second cast is near that (`ntp_window`) |
| C182 | Model/Deriv: `pval`, `ppval_1`, `ppinterp_1` with an integer order; reads outside a tuple are `indexError`, outside an array `oob` | for natural orders equal to Model/Interp; for negative orders the loop reads index `len(C)`; violated for arrays |
| C183 | `Isopycnal.isopycnal`, `isoSurf`, `VertSolve.vertsolve`; spec `Separable`, `IsoOf` | the function of pressure given to the root finder is the same for every kind and reference, on all pressures (NaN outside the data), hence the runs are equal |
| C184 | `SameLines`: two casts whose bottles sample the same lines between the same end pressures, or both dry; `interpAt`, `SameCast` between different interpolants | C101 (both interpolants reproduce lines) shows that all that is read from the two casts is equal; then the congruence theorems `trajectory_same`, `isoSurf_same`, `omegaSurf_same`, now between different interpolants |
| C185 | `Isopycnal.isopycnal`, `isoSurf`; spec `Constant` (the quantity constant on the surface), `Strat` (its rate of change along a cast is between m and L) | every point of a returned surface is within the accuracy of an exact level point (C39, C75); the second isovalue is the value at the point; `Solved.perturbed` of C163 with equal data |
| C186 | Model/IsoFront `isoSurf`, Model/Isopycnal; specification `TileOf` (every cast of the part is a cast of the whole) | the loop over casts returns iff each cast returns, entry by entry (`vertsolve_pointwise`); the returned reference always passes the checks again |
| C187 | Model/Isopycnal; specification `Strat` (rate of the quantity between m and L) | both calls return (`isopycnal_pin_returns`); two solutions of one cast are compared through the rate; existence by the signs at the ends |
| C188 | `Grid.xgcmBuild`, `Grid.rectGrid`, `omegaSurf` | the links towards the cell before, of either builder, are lists without repetition with the same members; C145 for the surfaces |
| C189 | `Graph.toGraph`, `Graph.buildGridDict`, `omegaSurf` | entries of the matrices are the lengths of the single edge; the edges found are those of the grid, each one way; C145 for the surfaces |
| C190 | `Grid.xgcmBuild`, `Grid.rectGrid`, `omegaSurf` | any numbering of a rectangle whose neighbours are those of the rectangle gives its links; the blocks are such a numbering; C145 for the surfaces |
| C191 | `omegaSurf` on two grids with the same links at sea | simulation: the queues of the wetting search agree after land is removed from them, land casts are no-ops and never become wet, so the region and the matrix problem are the same; `rectE` periodic and open have the same links at sea |
| C192 | `omegaSurf` on an ocean and on one with further rows of land | the links to land are dropped on both sides by C191; casts then reached by links are in the shared rows, so both runs are the same run of `omega` there (locality), with the same flat indices because rows are added at the end of the first dimension |
| C193 | `omegaSurf` on two oceans that agree on a set of casts bounded by land | C191 drops the links to land, then no link leaves the set and C153 applies; between the two, an ocean that is NaN outside the set, where links outside may be exchanged by C191 |
| C194 | `omegaSurf` on an ocean and on its first rows | C193 replaces the other rows by land, C192 cuts them off; the links of `rectE` between the rows kept and the others are those between two neighbouring rows |
| C195 | two calls on oceans of different shape, a strictly increasing map of cast numbers | simulation: queues, regions, matrices and potentials of the second run are those of the first at the mapped numbers; then land links dropped on both sides |
| C196 | two calls, on a window and on the whole of a rectilinear grid | the whole with everything outside the window made land is behind land equal to the whole (C193) and is the window with margins of land (C195) |
| C111, C112 | front end of `potential_surf`, `anomaly_surf` | shapes of any rank; every list |

## Violations found

For each the file of theorems has a concrete witness (`_false`) or a proof that the violation happens on every input of the
kind named, and beside it the strongest part that does hold (`_partial`, or the unsuffixed theorem named in `MANIFEST.json`).

| id | what the code does instead |
|----|----------------------------|
| C07 | the root is within about twice `tol_p`, not within `tol_p` |
| C22 | padded ORCA distances always raise `ValueError`: broadcasting comes before trimming |
| C23 | xgcm `build_grid` swaps the distances of the i and j neighbours on every grid; float distances (the default) raise `AttributeError` |
| C30 | `bfs_conncomp1_wet_perim` compares with the mixed layer of the neighbour, not of the cast being wetted |
| C31 | perimeter wetting depends on the order of neighbours |
| C32 | repeated perimeter wetting is not exhaustive |
| C35 | norms, and `omega_surf`, raise `KeyError` when `dist`/`distperp` are missing |
| C38 | `neutral_trajectory` with `p0` outside the first cast gives finite `p` with NaN `s`, `t` |
| C43 | diagnostics of the last pass are cut off |
| C44 | with the pinning point in the mixed layer the second pass of `omega_surf` raises `IndexError` |
| C47 | `isoval` and pin without `ref`, and `pin_p` without `pin_cast`, pass the check and fail later |
| C48 | with `ref` and `isoval` given, the surface is still overwritten at `pin_cast` |
| C56, C57 | `val_at` raises if a horizontal dimension has length 1; with a negative int it overwrites the caller's data |
| C58 | dict of two adjacency matrices with the same structure, one symmetric in values: raises |
| C60 | `stabilize_ST` loses its result unless S, T are C-ordered `float64` with the vertical last |
| C64 | `valid_range_1`'s documented `K = len(X)` is false for NaN-terminated data |
| C65 | a NaN bottle pressure makes `ntp_bottle_to_cast` loop forever |
| C67 | `bfs_conncomp1_wet` repeats failed links, so more than one calculation per cast |
| C71 | dict `pin_cast` in another order than the dimensions picks the wrong cast |
| C73 | fold adjacencies of tripolar grids are listed twice |
| C81 | `ITER_MAX = 0` raises `UnboundLocalError` |
| C85 | `veronis_density` on NaN-padded pressure fails instead of giving NaN |
| C88 | `count_unstable` with `interp_two` ignores the deepest bottle and counts the first pair twice |
| C90 | `mixed_layer` misses the crossing below a density inversion |
| C92 | gsw derivatives at negative salinity are not those of the clamped function |
| C95 | a Boussinesq function passed again with `grav`, `rho_c` is converted twice by some entry points and not by others |
| C97 | the vectorised linear interpolants have no default derivative order |
| C98 | `synthocean` with one level, one row or one column |
| C102 | xgcm neighbours for `ysh = "right"` are transposed |
| C103 | the returned omega surface can lie in the mixed layer |
| C105 | int `pin_cast` of `omega_surf` raises on two or more horizontal dimensions |
| C107 | attributes of `S` leak to `p` |
| C108 | a vertical dimension without coordinate raises for DataArrays; so does an int `vert_dim` out of range |
| C112 | list `pin_cast` with `pin_p` never returns a surface |
| C120 | `brent` accepts a range without sign change if `f(a)*f(b)` underflows to zero |
| C122 | in double precision the interpolant at a data site can differ from (and exceed) the datum by an ulp |
| C128 | with specific volume `omega_surf` stops up to a factor (ρ/1000)² before the tolerance is met in kg m⁻³ |
| C115 | `linear_coeffs`, `pchip_coeffs` refuse a last dimension of length 1 against another |
| C140 | a dict `p_ml` with the `vert_dim` of the data takes casts and levels for each other |
| C141 | an array of integers as `p_init` raises `ValueError` |
| C150 | with strong thermobaricity a pass of `omega_surf` can increase the neutrality errors |
| C151 | a cast with three links at its last bottle can get NaN salinity by rounding, and the next pass loses the surface |
| C152 | Veronis labels can decrease with pressure where the number of trapezoidal steps changes |
| C155 | `omega_surf` accepts `p_ml` of another shape and reads it in C order |
| C158 | with specific volume a neutral trajectory over identical casts drifts at every cast, because the root finder returns a point of the bracket on the other side of the exact root it was given |
| C161 | two stably stratified casts on which the deeper start gives the shallower neutral point, where the thermobaric effect exceeds the stratification |
| C162 | two stably stratified casts on which the omega surface pinned deeper at one cast is shallower at the other, where the thermobaric effect exceeds the stratification |
| C170 | `graph_binary_fcn` with a negative node number, and with an array of integers |
| C174 | `veronis` with a negative step larger than the bottle spacing: the integral is zero |
| C175 | `count_unstable` with an interpolant counts the deepest bottle only if a level without data is below it |
| C182 | `ppval_1` with `d = -1` at a site within the data reads behind the row of coefficients |

## Trusted base

1. **Lean's kernel** (4.33.0) and the Mathlib definitions that occur in the statements (real numbers, `HasDerivAt`, `Polynomial`,
   `Finset.sum`, `Relation.ReflTransGen`, `Matrix`, `intervalIntegral`, …).
2. **Axioms.**  Only `propext`, `Classical.choice` and `Quot.sound`.  `AXIOMS.md` lists, for every theorem named in
   `MANIFEST.json`, the axioms printed by `#print axioms` (made by `tools/axioms.py`).  No `sorry`, no own axioms, no
   `native_decide`, no `bv_decide`, no `implemented_by`, no `unsafe`.
3. **The reading of the Python source** in `Verif/Model/*.lean`.  Each definition cites the lines it models.  The equations of
   state (`EosGsw`, `EosJmd95`, `EosJmdfwg06`) were translated term by term by `tools/mkeos.py` (with `tools/py2lean.py`); the
   generated Lean is committed and is what the kernel checks.  That the translation is faithful is trusted, apart from the
   cross-check that the derivative functions are the derivatives of the others (C50–C53): a wrong coefficient in one of them
   would break that proof.

### Modelled

| source | model |
|--------|-------|
| `fzero.py` | `Model/Fzero` — all of it |
| `ppinterp/lib.py`, `ppinterp.py`, `linear.py`, `pchip.py` | `Model/Interp` — every scalar kernel; `Model/Gufunc` — the vectorised functions |
| `ppinterp/tools.py` | `Model/MakePP` |
| `traj.py` | `Model/Traj` |
| `bfs.py` | `Model/Bfs` |
| `ntp.py` | `Model/Ntp` |
| `label.py` | `Model/Label` |
| `lib.py` | `Model/Lib`, `Model/Flatten`, `Model/Xarray`; `_interp_casts` (unused) is not modelled |
| `stability.py` | `Model/Stability`, `Model/CountFront` — `scipy.optimize.minimize` is a parameter |
| `mixed_layer.py` | `Model/MixedLayer` |
| `synthocean.py` | `Model/Synthocean` |
| `grid/graph.py` | `Model/Graph`, `Model/GraphFcn` |
| `grid/rectilinear.py`, `tripolar.py`, `xgcm.py`, `grid/tools.py` | `Model/Grid`, `Model/Xgcm`, `Model/Lib` |
| `surface/isopycnal.py` | `Model/Isopycnal`, `Model/IsoFront` |
| `surface/omega.py` | `Model/Omega` (loop), `Model/OmegaMat` (matrices), `Model/OmegaFront` (arguments, shapes), `Model/Threads` (statements on shared arrays) |
| `surface/_vertsolve.py` | `Model/VertSolve`, `Model/Cache` |
| `eos/*.py` | `Model/EosBase`, `EosGsw`, `EosJmd95`, `EosJmdfwg06`, `EosTools`, `EosGswc`, `Cache`, `Gufunc` (`vectorize_eos`) |

### Parameters: what is assumed of code outside the repository

* `scipy.sparse.linalg.spsolve`, `lsqr`: functions; theorems that need it assume that they solve the square system, or return
  a least-squares solution (`OmegaMat.exact_solvers_exist` shows that such functions exist).
* `scipy.optimize.minimize`: an oracle that returns a point and a success flag; success is assumed to mean that the
  constraints hold where this is used (`Stability.cast_stabilised`).
* xgcm's padding: an arbitrary function.
* `functools.lru_cache`: modelled after its documentation; a call computes outside the lock, so other threads may interleave.
* numpy's broadcasting in generalised ufuncs: modelled after its documentation (`Model/Gufunc`).
* numba: compiled functions are assumed to mean what the Python text says, with division by zero raising `ZeroDivisionError`
  in `njit` functions (`error_model="python"`).
* the user's `eos`: an arbitrary function; continuity or monotonicity are hypotheses where used.

### Not modelled

* overflow and signed zeros; rounding and underflow except where the theorem is about `Rfl rnd`, or is stated for every type
  with `[FloatLike F]` (such theorems hold for any arithmetic, subject to the laws that they name as hypotheses);
* speed, memory, printed output (`verbose`/`diags` text), warnings;
* the GSW C library behind `eos/gswc.py` (a parameter);
* that `scipy.linalg.issymmetric` accepts sparse matrices (used by `grid/graph.py` for dicts); matrices are taken as functions;
* plotting, examples, documentation build, test code.

### Numbers

`Fl α` compares infinities as IEEE does (`-inf < x < +inf`; NaN compares false with everything), and gives NaN for
`inf - inf`, `0 * inf`, `0 / 0`, `inf / inf`.  `Props/FloatLaws` proves the laws of this instance that the exact theorems rely on.

## Testing the theorems

`seeded/LOG.jsonl` records edits of the model that imitate realistic bugs, made in a scratch copy: the definition edited, the edit,
the claim it breaks, which theorems stopped proving, and what was tightened if one survived.
