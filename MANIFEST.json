{
 "claims": [
  {
   "property": "C01",
   "status": "proved",
   "theorems": [
    "Fzero.brent_sign_change",
    "Fzero.brent_root_nearby"
   ],
   "note": "exact arithmetic over any ordered field / reals"
  },
  {
   "property": "C02",
   "status": "proved",
   "theorems": [
    "Fzero.brent_terminates"
   ],
   "note": "exact arithmetic"
  },
  {
   "property": "C03",
   "status": "proved",
   "theorems": [
    "Fzero.brent_nan_iff",
    "Fzero.brent_no_exception",
    "Fzero.brent_nan_bounds"
   ],
   "note": "exact arithmetic"
  },
  {
   "property": "C04",
   "status": "proved",
   "theorems": [
    "Fzero.guessToBounds_spec",
    "Fzero.guessToBounds_brent_finite"
   ],
   "note": "exact arithmetic"
  },
  {
   "property": "C05",
   "status": "proved",
   "theorems": [
    "Fzero.guessToBounds_spec",
    "Fzero.guessToBounds_finds"
   ],
   "note": "exact arithmetic"
  },
  {
   "property": "C06",
   "status": "proved",
   "theorems": [
    "Fzero.brentGuess_spec",
    "Fzero.brentGuess_finds_root"
   ],
   "note": "exact arithmetic"
  },
  {
   "property": "C07",
   "status": "partial",
   "theorems": [
    "Traj.ntp_tol_doc_false",
    "Traj.ntp_spec"
   ],
   "note": "documented accuracy is false (concrete witness); ntp_spec proves the true accuracy, about twice tol_p"
  },
  {
   "property": "C08",
   "status": "proved",
   "theorems": [
    "Interp.validRange_spec",
    "Interp.validRange2_spec",
    "Interp.IsFirstBlock.unique"
   ],
   "note": "any arithmetic in which finite numbers are not NaN"
  },
  {
   "property": "C09",
   "status": "proved",
   "theorems": [
    "Interp.ppval1_spec",
    "Interp.ppval1_few",
    "Interp.pieceIndex_range"
   ],
   "note": ""
  },
  {
   "property": "C10",
   "status": "proved",
   "theorems": [
    "Interp.linear_interpolates",
    "Interp.pchip_interpolates"
   ],
   "note": "exact arithmetic"
  },
  {
   "property": "C100",
   "status": "proved",
   "theorems": [
    "Interp.pchip_slopes",
    "Interp.threePoint_parabola"
   ],
   "note": ""
  },
  {
   "property": "C101",
   "status": "proved",
   "theorems": [
    "Interp.line_reproduced",
    "Interp.units_change"
   ],
   "note": ""
  },
  {
   "property": "C102",
   "status": "partial",
   "theorems": [
    "Grid.neighbours_left_partial",
    "Grid.build_left_partial",
    "Grid.neighbours_reject",
    "Grid.build_shift",
    "Grid.neighbours_right",
    "Grid.neighbours_right_false",
    "Grid.neighbours_order_partial",
    "Grid.neighbours_order_false"
   ],
   "note": "Holds for ysh='left' (with either xsh). Violated for ysh='right' on every tile of at least 2x2 cells: the result of the grid ufunc is not transposed back, so entry (t,j,i) is the neighbour of (t,i,j). For other orders of dims (which the documentation allows) neighbours_order_partial gives the cases that hold (i last for im1; left shift or j last for jm1) and neighbours_order_false shows that (tile, i, j) gives wrong neighbours; xgcm's padding is a parameter."
  },
  {
   "property": "C103",
   "status": "partial",
   "theorems": [
    "Omega.omega_ml_partial",
    "Omega.omegaSurf_ml_partial",
    "Omega.omega_ml_false"
   ],
   "note": "False as documented: removal happens at the start of a pass, so the last pass can leave casts in the mixed layer, and wetting can bring casts back. Proved: once wetting has stopped, every cast found in the mixed layer before the last pass is NaN in the returned surface. Violated in general, with a concrete ocean as witness."
  },
  {
   "property": "C104",
   "status": "proved",
   "theorems": [
    "Omega.omegaSurf_spec",
    "Omega.omegaSurf_pinned",
    "Omega.omegaSurf_noml"
   ],
   "note": "Composition of the front end with the iteration. omegaSurf_pinned is for the Poisson formulation (for the gradient formulation see gradient_pinSolver, C41)."
  },
  {
   "property": "C105",
   "status": "partial",
   "theorems": [
    "Omega.omegaSurf_int_partial",
    "Omega.omegaSurf_int_false",
    "Omega.omegaSurf_negative"
   ],
   "note": "False as documented: with two or more horizontal dimensions every int raises ValueError, and so does a tuple with a negative index. Proved for casts in a row."
  },
  {
   "property": "C106",
   "status": "proved",
   "theorems": [
    "Xarray.surf_labels",
    "Xarray.surf_fits",
    "Xarray.surf_mismatch"
   ],
   "note": "Assumes that T has the dimensions of S and that the vertical dimension has a coordinate (see C108)."
  },
  {
   "property": "C107",
   "status": "partial",
   "theorems": [
    "Xarray.surf_attrs_partial",
    "Xarray.surf_attrs_false"
   ],
   "note": "Violated: attributes of S that P has not (such as units) appear on p. Proved: attributes that P has are kept."
  },
  {
   "property": "C108",
   "status": "partial",
   "theorems": [
    "Xarray.surf_np_partial",
    "Xarray.surf_nocoord_false",
    "Xarray.surf_int_false"
   ],
   "note": "Violated: a vertical dimension without coordinate raises ValueError (drop_vars), and a vert_dim beyond the dimensions, taken modulo for ndarrays, raises IndexError."
  },
  {
   "property": "C109",
   "status": "proved",
   "theorems": [
    "Cache.calls_spec",
    "Cache.calls_error",
    "Cache.conc_spec",
    "Cache.makeVertsolve_history"
   ],
   "note": "functools.lru_cache is modelled after its documentation and source; keys that Python regards as equal are one key, and arguments are hashable."
  },
  {
   "property": "C11",
   "status": "proved",
   "theorems": [
    "Interp.linear_chord",
    "Interp.linear_between"
   ],
   "note": "exact arithmetic"
  },
  {
   "property": "C110",
   "status": "proved",
   "theorems": [
    "Cache.not_recomputed",
    "Cache.recomputed_example"
   ],
   "note": "For one thread. recomputed_example shows that the bound of ten is sharp."
  },
  {
   "property": "C111",
   "status": "proved",
   "theorems": [
    "Isopycnal.isoSurf_spec"
   ],
   "note": "Composition of the front end with the vertical solves."
  },
  {
   "property": "C112",
   "status": "partial",
   "theorems": [
    "Isopycnal.isoSurf_tuple_partial",
    "Isopycnal.isoSurf_list_false",
    "Isopycnal.isoSurf_list_typing",
    "Isopycnal.isoSurf_length"
   ],
   "note": "Violated for lists: numpy takes a list as fancy indices into the first dimension, so no call with a list and pin_p returns. Proved for tuples."
  },
  {
   "property": "C113",
   "status": "proved",
   "theorems": [
    "Gufunc.linear_interp_spec",
    "Gufunc.pchip_interp_spec",
    "Gufunc.linear_interp_two_spec",
    "Gufunc.pchip_interp_two_spec",
    "Gufunc.interpU_returns",
    "Gufunc.interpU_refuses",
    "Gufunc.coeffsU_ok",
    "Gufunc.coeffsU_returns",
    "Gufunc.coeffsU_refuses",
    "Gufunc.ppvalU_returns",
    "Gufunc.ppvalTwoU_returns",
    "Gufunc.ppvalTwoU_rejects",
    "Gufunc.vectorizeEos_spec",
    "Gufunc.vectorizeEos_returns",
    "Gufunc.bshapes_spec",
    "Gufunc.Broadcast.unique"
   ],
   "note": "numpy's rules for generalised ufuncs are modelled from its documentation; negative derivative orders are not modelled."
  },
  {
   "property": "C114",
   "status": "proved",
   "theorems": [
    "Gufunc.linear_table",
    "Gufunc.pchip_table"
   ],
   "note": ""
  },
  {
   "property": "C115",
   "status": "partial",
   "theorems": [
    "Gufunc.coeffs_singleton_false",
    "Gufunc.coeffsU_returns"
   ],
   "note": "Violated for the last dimension. All other dimensions may be singletons (coeffsU_returns)."
  },
  {
   "property": "C116",
   "status": "proved",
   "theorems": [
    "Gswc.gswc_derivatives"
   ],
   "note": "The GSW C library is a parameter; its documented derivatives are the hypothesis."
  },
  {
   "property": "C117",
   "status": "proved",
   "theorems": [
    "Stability.count_pairs_arrays",
    "Stability.count_interp_arrays"
   ],
   "note": "eos acts on arrays entry by entry (as vectorised functions do, C113)."
  },
  {
   "property": "C118",
   "status": "proved",
   "theorems": [
    "Fzero.brent_rounded",
    "Fzero.brent_rounded_no_exception",
    "Rounding53.rnd53_std"
   ],
   "note": "rnd53_std: IEEE round-to-nearest-even with 53 bits meets the assumptions on rounding"
  },
  {
   "property": "C119",
   "status": "proved",
   "theorems": [
    "Fzero.guessToBounds_rounded",
    "Fzero.brentGuess_rounded",
    "Fzero.brentGuess_rounded_near_root"
   ],
   "note": ""
  },
  {
   "property": "C12",
   "status": "proved",
   "theorems": [
    "Interp.pchip_shape"
   ],
   "note": "exact arithmetic"
  },
  {
   "property": "C120",
   "status": "partial",
   "theorems": [
    "Fzero.brent_same_sign_false",
    "Fzero.brent_rounded",
    "Rounding53.rndNear_nearest",
    "Rounding53.rnd64_nearest"
   ],
   "note": "violated when f(a)*f(b) underflows to 0 (witness in gradual underflow arithmetic); holds without underflow (brent_rounded) and in exact arithmetic (C03); the two roundings are shown to be to nearest"
  },
  {
   "property": "C121",
   "status": "proved",
   "theorems": [
    "Interp.linear_rounded"
   ],
   "note": ""
  },
  {
   "property": "C122",
   "status": "partial",
   "theorems": [
    "Interp.linear_site_inexact",
    "Interp.pchip_site_inexact",
    "Interp.linear_rounded_first_partial",
    "Interp.linear_rounded_site_partial"
   ],
   "note": "violated in double precision: data (0,0),(25,7) at 25 give 7+2^-50; exact at the first site; elsewhere within the bound of C121"
  },
  {
   "property": "C123",
   "status": "proved",
   "theorems": [
    "Interp.pchip_rounded",
    "Interp.pchip_rounded_onthefly"
   ],
   "note": ""
  },
  {
   "property": "C124",
   "status": "proved",
   "theorems": [
    "Traj.ntp_rounded",
    "Traj.trajectory_rounded",
    "VertSolve.potential_rounded",
    "VertSolve.anomaly_rounded",
    "VertSolve.omega_rounded"
   ],
   "note": "per cast; the equation of state is any function computed in rounded arithmetic"
  },
  {
   "property": "C125",
   "status": "proved",
   "theorems": [
    "Traj.ntp_accurate",
    "Traj.Accurate.stable",
    "VertSolve.potential_accurate",
    "VertSolve.anomaly_accurate",
    "VertSolve.omega_accurate"
   ],
   "note": ""
  },
  {
   "property": "C126",
   "status": "proved",
   "theorems": [
    "Synthocean.longitudes",
    "Synthocean.latitudes",
    "Synthocean.distances",
    "Synthocean.areas"
   ],
   "note": "in real arithmetic"
  },
  {
   "property": "C127",
   "status": "proved",
   "theorems": [
    "Omega.omega_wetting_window",
    "Omega.omega_no_wetting"
   ],
   "note": "any arithmetic"
  },
  {
   "property": "C128",
   "status": "partial",
   "theorems": [
    "Omega.tol_units_false",
    "Omega.tol_units_partial",
    "Omega.tol_density"
   ],
   "note": "violated by a factor up to (density/1000)^2 for specific volume; exact for density"
  },
  {
   "property": "C129",
   "status": "proved",
   "theorems": [
    "Jmd95.jmd95_rounded",
    "Jmdfwg06.jmdfwg06_rounded",
    "Gsw.gsw_rounded"
   ],
   "note": "laws assumed of the rounding: relative error at most 2^-53, monotone, odd; no underflow"
  },
  {
   "property": "C13",
   "status": "proved",
   "theorems": [
    "Interp.pchip_C1"
   ],
   "note": "over the reals"
  },
  {
   "property": "C130",
   "status": "proved",
   "theorems": [
    "Jmd95.jmd95_sensitivity",
    "Jmd95.jmd95_signs",
    "Jmd95.jmd95_solves",
    "Jmdfwg06.jmdfwg06_sensitivity",
    "Jmdfwg06.jmdfwg06_signs",
    "Jmdfwg06.jmdfwg06_solves",
    "Gsw.gsw_sensitivity",
    "Gsw.gsw_signs",
    "Gsw.gsw_solves"
   ],
   "note": "the equation of state is taken with NaN in place of ZeroDivisionError, which C129 shows does not occur on the range"
  },
  {
   "property": "C131",
   "status": "proved",
   "theorems": [
    "VertSolve.Solved.order",
    "VertSolve.Solved.exists_iff",
    "VertSolve.potential_order",
    "VertSolve.anomaly_order",
    "VertSolve.piece_mono",
    "VertSolve.interp_mono",
    "VertSolve.interp_anti",
    "VertSolve.stable_of_monotone"
   ],
   "note": "Exact real arithmetic with the accuracy of the solver; stability is stated through the public interpolation functions"
  },
  {
   "property": "C132",
   "status": "proved",
   "theorems": [
    "VertSolve.ntp_retrace",
    "VertSolve.trajectory_retrace"
   ],
   "note": "Exact real arithmetic with the accuracy of the solver; the example shows copies of a cast satisfy the hypotheses and goes there and back"
  },
  {
   "property": "C133",
   "status": "proved",
   "theorems": [
    "Stability.count_rounded",
    "Stability.grad_rounded",
    "Stability.unstable_rounded",
    "Stability.count_zero_after_rounded",
    "Jmd95.count_unstable",
    "Jmdfwg06.count_unstable"
   ],
   "note": "jmd95 and jmdfwg06 are taken with NaN in place of ZeroDivisionError, which C129 excludes on the range"
  },
  {
   "property": "C134",
   "status": "proved",
   "theorems": [
    "Bfs.wet_calls",
    "Bfs.wet_work"
   ],
   "note": "The list of calculations is a ghost variable of the model"
  },
  {
   "property": "C135",
   "status": "proved",
   "theorems": [
    "Ntp.epsErr_reverse_rounded",
    "Ntp.epsErr_rounded",
    "Ntp.epsErr_zero_rounded",
    "Jmd95.epsErr_close",
    "Jmd95.epsErr_sign",
    "Jmdfwg06.epsErr_close",
    "Gsw.epsErr_close"
   ],
   "note": "The exponent range is unbounded in the model of rounding"
  },
  {
   "property": "C136",
   "status": "proved",
   "theorems": [
    "OmegaMat.balanced_relabel",
    "OmegaMat.Region.relabel",
    "OmegaMat.poisson_solver",
    "OmegaMat.gradient_solver",
    "OmegaMat.solver_relabel",
    "Omega.step_relabel",
    "Omega.loop_relabel",
    "Omega.omega_relabel"
   ],
   "note": "Exact arithmetic; sparse solvers assumed exact (spsolve solves, lsqr minimises), which is shown satisfiable; without wetting, whose result depends on the order of neighbours (C31). The hypothesis that every pass is posed is derived from static conditions in C137."
  },
  {
   "property": "C137",
   "status": "proved",
   "theorems": [
    "Omega.err_finite",
    "Omega.region_posed",
    "Omega.moved",
    "Omega.step_total",
    "Omega.loop_total",
    "Omega.run_spec",
    "Omega.interp_total",
    "Omega.wetting_total",
    "Omega.region_total",
    "Omega.omega_from",
    "Omega.omega_total",
    "Omega.omega_total_scalar"
   ],
   "note": "Exact real arithmetic, sparse solvers with any error bound, with or without wetting, from an array or from a scalar. omega_total also gives the hypothesis AllPosed of C136; an example runs a renumbered ocean through both."
  },
  {
   "property": "C138",
   "status": "proved",
   "theorems": [
    "OmegaMat.poisson_accuracy",
    "OmegaMat.gradient_accuracy",
    "OmegaMat.cost_accuracy",
    "OmegaMat.correction_accuracy",
    "OmegaMat.correction_sensitivity",
    "OmegaMat.route_exists",
    "OmegaMat.poisson_within",
    "OmegaMat.gradient_within",
    "OmegaMat.Solver.within"
   ],
   "note": "NearSolve and NearLsqr state what is asked of the solver on systems with a unique solution; exact solvers are the case eta = 0 or g = 0. Routes and imbalance are defined from the weighted edges and the errors only."
  },
  {
   "property": "C139",
   "status": "proved",
   "theorems": [
    "Omega.omegaSurf_total"
   ],
   "note": "Exact real arithmetic, sparse solvers with a bounded error, both formulations, scalar or array p_init, any vertical and any number of horizontal dimensions, wetting. The casts have one block of data with increasing pressure, or are land; links have positive lengths."
  },
  {
   "property": "C14",
   "status": "proved",
   "theorems": [
    "Interp.pchip_onthefly_eq_table",
    "Interp.linear_onthefly_eq_table"
   ],
   "note": "see the laws named in the theorems"
  },
  {
   "property": "C140",
   "status": "partial",
   "theorems": [
    "Omega.omegaSurf_dict_partial",
    "Omega.omegaSurf_dict_false",
    "Omega.omegaSurf_dict_vert_false"
   ],
   "note": "Violated if the dict contains vert_dim: mixed_layer is called on the rearranged matrix of casts, so that its vert_dim must be the last dimension whatever the data. Proved for dicts without it."
  },
  {
   "property": "C141",
   "status": "partial",
   "theorems": [
    "Omega.omegaSurf_intinit_false",
    "Omega.omegaSurf_floatinit_partial"
   ],
   "note": "Violated: an integer array p_init, as in the comment in the code (np.full((ni, nj), 1000)), raises ValueError since NaN cannot be stored in it. Proved for float64 arrays. float32 not modelled."
  },
  {
   "property": "C142",
   "status": "proved",
   "theorems": [
    "Omega.omega_diags_values",
    "Omega.pass_diags",
    "Omega.DiagSpec.order",
    "Omega.nanmean_holds",
    "Omega.nanmax_holds"
   ],
   "note": "Exact real arithmetic, runs on the well formed oceans of C137; for every pass but the last, whose entries are cut off (see C43)."
  },
  {
   "property": "C143",
   "status": "proved",
   "theorems": [
    "UnitChange.ntp_units",
    "UnitChange.trajectory_units",
    "UnitChange.isopycnal_units",
    "UnitChange.bfsWet_units",
    "UnitChange.wetPerim_units",
    "UnitChange.poisson_units",
    "UnitChange.gradient_units",
    "UnitChange.epsilonErrors_units",
    "UnitChange.norms_units",
    "UnitChange.mixedLayer_units",
    "UnitChange.omega_units",
    "UnitChange.same_poisson",
    "UnitChange.same_gradient",
    "UnitChange.hom_solver_exists",
    "UnitChange.hom_lsqr_exists",
    "UnitChange.eos_exists",
    "UnitChange.veronis_units"
   ],
   "note": "Exact arithmetic; no hypothesis on casts or the equation of state. The external sparse solver is assumed homogeneous in the right-hand side (exact homogeneous solvers exist). Pressure has no offset: the stopping rule of brent uses |p|. The tests `eos(34.5, 3, 1000) < 1` that distinguish density from specific volume are not part of it (C128); in mixed_layer both equations of state are assumed to pass as density."
  },
  {
   "property": "C144",
   "status": "proved",
   "theorems": [
    "Omega.omega_restart",
    "Omega.omega_all_passes",
    "Omega.restart_mixed_layer"
   ],
   "note": "Exact real arithmetic. restart_mixed_layer is the witness (Fl ℚ, decide) that the condition on the mixed layer is needed. omega_all_passes gives a way to know that the uninterrupted run makes more than n passes."
  },
  {
   "property": "C145",
   "status": "proved",
   "theorems": [
    "Omega.omegaSurf_relabel",
    "Omega.rectGrid_links",
    "Omega.rect_symmetric",
    "Omega.rect_transposed",
    "Omega.omegaSurf_symmetric",
    "Omega.omegaSurf_transposed"
   ],
   "note": "Exact arithmetic, exact solvers, well-behaved casts (Call), wetting off. rectGrid_links shows that build_grid of a rectilinear grid has exactly the links used. DimSym covers identity, roll and flip. Example: ring of three casts with land, rolled by one, one side by the Poisson and the other by the gradient formulation."
  },
  {
   "property": "C146",
   "status": "proved",
   "theorems": [
    "Omega.quadratic_noThermobaricity",
    "Omega.pass_isopycnal",
    "Omega.omega_isopycnal",
    "Omega.IsoWithin.agrees",
    "Omega.IsoWithin.potential_anomaly",
    "Omega.omegaSurf_isopycnal"
   ],
   "note": "Exact arithmetic; the matrix solver is within b of the solution (b = 0 when exact). NoThermobaricity asks that the differences of density are those given by the derivatives midway, which quadratic_noThermobaricity shows for quadratics."
  },
  {
   "property": "C147",
   "status": "proved",
   "theorems": [
    "OmegaMat.eliminates_iff",
    "OmegaMat.section_eliminates",
    "OmegaMat.weights_do_not_matter",
    "Omega.pass_section"
   ],
   "note": "Exact arithmetic, exact matrix solver. An example in the file shows a thermobaric triangle where no correction eliminates the errors."
  },
  {
   "property": "C148",
   "status": "proved",
   "theorems": [
    "Omega.omega_converges",
    "Omega.passes_converge",
    "Omega.pass_calm",
    "Omega.seos_thermobaric"
   ],
   "note": "Exact arithmetic; matrix solver within beta, vertical solver with its real tolerance. Density f(s,t) + a(p) s + d(p) t + g(p) with f quadratic, which includes the simplified equation of state of NEMO; not the 75-term GSW or Jackett-McDougall polynomials. An example meets all hypotheses and stops within four passes."
  },
  {
   "property": "C149",
   "status": "proved",
   "theorems": [
    "VertSolve.link_iso",
    "VertSolve.trajectory_isopycnal",
    "VertSolve.trajectory_path_independent",
    "VertSolve.acc_bound",
    "Omega.wetted_isopycnal",
    "Omega.init_isopycnal"
   ],
   "note": "Exact arithmetic. `Splits` is the absence of thermobaricity; `IsoCast`/`StableCast` say that the cast is well formed and its density slope at most U; `OnIso` that a point is on the isopycnal within a bound. i = 0 or j = 0 in trajectory_path_independent is the closed path. How far wetting extends is C136/C137."
  },
  {
   "property": "C15",
   "status": "proved",
   "theorems": [
    "Interp.ppval1Two_eq",
    "Interp.ppval1Two_fst",
    "Interp.ppinterp1Two_eq",
    "Interp.ppval1Nonan_trim",
    "Interp.ppval1NonanTwo_eq",
    "Interp.pchipNonan_eq"
   ],
   "note": ""
  },
  {
   "property": "C150",
   "status": "partial",
   "theorems": [
    "Omega.pass_reduces_false",
    "Omega.pass_reduces_partial",
    "Omega.omega_optimal",
    "OmegaMat.next_cost",
    "OmegaMat.small_correction_optimal"
   ],
   "note": "Violated with strong thermobaricity: pass_reduces_false has two casts on which one pass more than doubles the error although a neutral point exists. Proved where thermobaricity is weak (the hypotheses of C148): pass_reduces_partial bounds the errors after a pass by those of the best first order correction plus a remainder; omega_optimal: the returned surface is optimal to first order."
  },
  {
   "property": "C151",
   "status": "partial",
   "theorems": [
    "Bfs.perim_nan_structure_false",
    "Bfs.perim_rounded_partial",
    "Bfs.perim_sound_rounded",
    "Bfs.perim_lost_three",
    "Bfs.mean_bounds",
    "Bfs.mean_few",
    "Bfs.mean_four",
    "Rounding53.rnd_four",
    "Omega.omega_collapse_false"
   ],
   "note": "Violated: in double precision the computed mean of three times 100.4 is larger than 100.4, so a cast with three links to its last bottle gets a pressure but NaN salinity and temperature (perim_nan_structure_false), and the next pass of omega_surf loses the surface everywhere but at the pin (omega_collapse_false). Proved: the computed mean leaves the data by rounding errors at most, never with one or two links, nor with four (perim_rounded_partial, mean_four), so grids with up to two neighbours per cast are safe (perim_sound_rounded) and on grids with four neighbours the first loss needs exactly three links (perim_lost_three)."
  },
  {
   "property": "C152",
   "status": "partial",
   "theorems": [
    "Label.veronis_order_false",
    "Label.veronis_order_partial",
    "Label.veronis_accuracy"
   ],
   "note": "Violated for every step size: veronis_order_false has a stably stratified cast on which the label at 19/20 dp is larger than that at dp, because the number of trapezoidal steps to the next bottle changes there. Proved: labels are accurate to second order in dp (veronis_accuracy), ordered for any dp if the deeper position is a bottle, and ordered between positions so far apart that the increase of density exceeds the error (veronis_order_partial)."
  },
  {
   "property": "C153",
   "status": "proved",
   "theorems": [
    "Bfs.wetPerim_local",
    "OmegaMat.poisson_confined",
    "OmegaMat.gradient_confined",
    "Omega.step_local",
    "Omega.omega_local",
    "Omega.omegaSurf_local"
   ],
   "note": "Any arithmetic with NanLaws (proved for exact and for rounded arithmetic); the number of casts may even differ. For an array p_init the interpolation of the second ocean must not raise."
  },
  {
   "property": "C154",
   "status": "proved",
   "theorems": [
    "Omega.wetting_rounded",
    "Omega.step_rounded",
    "Omega.init_rounded",
    "Omega.omega_float",
    "Omega.omega_float_on",
    "Omega.omegaSurf_float",
    "Omega.lost_three"
   ],
   "note": "Rounded arithmetic without overflow. Lost bottles (C151) are part of the statement; without passes that wet casts or with at most two links at each cast there are none (omega_float_on); in double precision with at most four links they are within four rounding errors of the data (lost_three). lsqr must return finite numbers for the gradient formulation."
  },
  {
   "property": "C155",
   "status": "partial",
   "theorems": [
    "Omega.omegaSurf_errors_partial",
    "Omega.omegaSurf_casts_errors_partial",
    "Omega.omegaSurf_pml_shape_false",
    "Omega.pml_transposed_false",
    "Lib.processCasts_errors",
    "Isopycnal.isoSurf_errors_partial"
   ],
   "note": "False for p_ml: an array of another shape (transposed, say) is accepted and read in C order, so casts get the mixed layer of other casts (omegaSurf_pml_shape_false). Also a number vert_dim beyond the dimensions is taken modulo (C70). Links to casts that do not exist are an out of range access in compiled code, not an exception. All other faults: exact characterisation of each exception."
  },
  {
   "property": "C156",
   "status": "proved",
   "theorems": [
    "Omega.omegaSurf_padding",
    "Isopycnal.isoSurf_padding",
    "Traj.trajectory_padding",
    "Traj.ntp_padding",
    "Same.NanPad.same"
   ],
   "note": "Equality to the last bit, in any arithmetic with NaN + x = NaN (exact and rounded instances given). For omega_surf in both directions: a run on the padded arrays returns the same arrays as one on the unpadded ones."
  },
  {
   "property": "C157",
   "status": "proved",
   "theorems": [
    "Same.ntp_refine",
    "Same.trajectory_refine",
    "Same.pchip_refine_false",
    "Omega.omegaSurf_refine",
    "Isopycnal.isoSurf_refine"
   ],
   "note": "Exact arithmetic and linear interpolation; pchip_refine_false shows that PCHIP changes, both for bottles on the straight line and for bottles on the PCHIP curve."
  },
  {
   "property": "C158",
   "status": "partial",
   "theorems": [
    "Fzero.solveRoot_exact",
    "Traj.ntp_flat",
    "Traj.trajectory_flat_partial",
    "Traj.ntp_flat_near",
    "Traj.trajectory_flat_false",
    "OmegaMat.poisson_level",
    "OmegaMat.gradient_level",
    "Omega.wetting_level",
    "Omega.init_level",
    "Omega.omega_flat_partial",
    "Omega.omega_flat_stops",
    "Omega.omegaSurf_flat_partial"
   ],
   "note": "Holds exactly for density (an equation of state that increases downwards); trajectory_flat_false: with specific volume a trajectory over identical casts drifts at every cast, ntp_flat_near bounds one step. For omega_surf the linear solvers are assumed to return zero for a zero right-hand side, and the mean of copies of the pressure must be exact (true for one, two and four links; three can be off by a rounding error, see C151)."
  },
  {
   "property": "C159",
   "status": "proved",
   "theorems": [
    "VertSolve.ntp_density_volume",
    "VertSolve.potential_density_volume"
   ],
   "note": "Both problems are within their accuracy of the same exact solution (C125); the gradient of the specific volume difference is at least that of density over the square of the largest density. Not stated for whole omega surfaces, where the correction is also in other units."
  },
  {
   "property": "C16",
   "status": "proved",
   "theorems": [
    "Interp.pval_derivative",
    "Interp.pval_high"
   ],
   "note": "exact arithmetic"
  },
  {
   "property": "C160",
   "status": "proved",
   "theorems": [
    "Omega.omegaSurf_positive",
    "Omega.rect_omega",
    "Omega.tri_omega",
    "Omega.xgcm_omega",
    "Omega.lengths_omega",
    "Omega.graph_omega",
    "Grid.neighbours_range"
   ],
   "note": "Composition of the builders with the totality of the iteration (C139) over exact arithmetic; dictionary of matrices: both symmetric. With xgcm the neighbours beyond the tiles are taken from the library."
  },
  {
   "property": "C161",
   "status": "partial",
   "theorems": [
    "VertSolve.ntp_order_partial",
    "VertSolve.trajectory_order_partial",
    "VertSolve.trajectory_order_false"
   ],
   "note": "Violated where the thermobaric effect exceeds the stratification: trajectory_order_false has two stably stratified casts on which the deeper start gives the shallower neutral point. Proved where the midpoint density difference increases downwards along either cast (slopes between m and L): order is kept up to solver errors, and strictly as long as the starting points are far enough apart."
  },
  {
   "property": "C162",
   "status": "partial",
   "theorems": [
    "Omega.omegaSurf_order_partial",
    "Omega.omegaSurf_order_pin_partial",
    "Omega.omega_order_false"
   ],
   "note": "Proved for an equation of state without thermobaricity, whatever grids and initial surfaces the two runs use. Violated with strong thermobaricity: in omega_order_false the surface pinned 6 deeper at one cast is shallower at the other, in double precision and with an exact linear solver."
  },
  {
   "property": "C163",
   "status": "proved",
   "theorems": [
    "VertSolve.close_linear",
    "VertSolve.close_pchip",
    "VertSolve.jmd95_close",
    "VertSolve.jmdfwg06_close",
    "VertSolve.potential_perturbed",
    "VertSolve.anomaly_perturbed",
    "VertSolve.ntp_perturbed",
    "VertSolve.trajectory_perturbed",
    "Omega.omegaSurf_perturbed"
   ],
   "note": "Exact arithmetic. The statement on whole omega surfaces is for densities without thermobaricity (the only ones for which an omega surface is determined by the pinning point); surfaces and trajectories of single casts are for any density."
  },
  {
   "property": "C164",
   "status": "proved",
   "theorems": [
    "Interp.fbSlope_lip",
    "Interp.threePoint_lip",
    "Interp.slopeSpec_lip",
    "Interp.pchip_near"
   ],
   "note": "Exact arithmetic."
  },
  {
   "property": "C165",
   "status": "proved",
   "theorems": [
    "Traj.link_start",
    "Traj.trajectory_resume",
    "Traj.trajectory_glue"
   ],
   "note": "In every arithmetic in which NaN is not finite and finite numbers are not NaN."
  },
  {
   "property": "C166",
   "status": "proved",
   "theorems": [
    "Omega.triGrid_links",
    "Omega.tri_symmetric",
    "Omega.omegaSurf_tripolar"
   ],
   "note": "Exact arithmetic, exact solvers, well-behaved casts (Call), wetting off. triGrid_links: the builder returns the links of the specification. TriSym.mirror and TriSym.half: both renumberings meet the hypotheses."
  },
  {
   "property": "C167",
   "status": "proved",
   "theorems": [
    "Stability.stabilize_run",
    "Stability.stabilize_retry",
    "Stability.stabilize_again"
   ],
   "note": "Any arithmetic with the two laws named. The minimiser is a parameter; the one of the first call must report success only where no constraint is negative (demoMini is an example)."
  },
  {
   "property": "C168",
   "status": "proved",
   "theorems": [
    "EosTools.bsq_first",
    "EosTools.bsq_firstTwo",
    "EosTools.ntp_bsq",
    "EosTools.trajectory_bsq",
    "EosTools.isopycnal_bsq",
    "EosTools.mixedLayer_bsq",
    "EosTools.veronis_bsq",
    "EosTools.omega_bsq_poisson",
    "EosTools.omega_bsq_gradient"
   ],
   "note": "Exact arithmetic, NaN in place of ZeroDivisionError of the equation of state; the external sparse solver is homogeneous in the right-hand side (such exact solvers exist). mixed_layer for equations of state that give density."
  },
  {
   "property": "C169",
   "status": "proved",
   "theorems": [
    "SurfThread.inputs_unchanged",
    "SurfThread.calls_isolated",
    "SurfThread.outputs_new",
    "Threads.isolation"
   ],
   "note": "Statement granularity: one numpy or numba statement on arrays is one step; the compiled-function caches shared by threads are C109; flattening and xarray wrapping before and after are modelled without aliases (Model/Flatten, Model/Xarray): they write into no array."
  },
  {
   "property": "C17",
   "status": "proved",
   "theorems": [
    "Interp.linear_padding",
    "Interp.pchip_padding"
   ],
   "note": ""
  },
  {
   "property": "C170",
   "status": "partial",
   "theorems": [
    "GraphFcn.graphBinaryFcn_partial",
    "GraphFcn.graphBinaryFcn_negative_false",
    "GraphFcn.graphBinaryFcn_int_false"
   ],
   "note": "Violated: a negative node number takes the value of a node counted from the end instead of giving NaN, for all values and functions; integer node values make the result an array of integers, so that function values are truncated. Proved for node numbers in range with float values, or integer values and an integer-valued function."
  },
  {
   "property": "C171",
   "status": "proved",
   "theorems": [
    "MixedLayer.mixed_layer_rounded",
    "MixedLayer.eos_dens"
   ],
   "note": "Rounded arithmetic has unbounded exponent. `eos_dens` discharges the hypotheses on the equation of state for jmd95, jmdfwg06 and gsw; an example in IEEE rounding shows a cast that meets the rest."
  },
  {
   "property": "C172",
   "status": "proved",
   "theorems": [
    "Traj.trajectory_tracks"
   ],
   "note": ""
  },
  {
   "property": "C173",
   "status": "proved",
   "theorems": [
    "Label.veronis_rounded"
   ],
   "note": "Over Rfl rnd with BinRound rnd (IEEE binary64 without overflow and underflow: Rounding53.rndNear_bin); the equation of state enters by STBox and EosBox (computed values close to Lipschitz functions on a box). Model simplification: np.linspace multiplies and divides in a different order."
  },
  {
   "property": "C174",
   "status": "partial",
   "theorems": [
    "Label.veronis_bad_step_partial",
    "Label.veronis_negative_step_accepted"
   ],
   "note": "Violated: a negative step larger in size than every bottle spacing is accepted, one point per interval is used, and every position gets the potential density at the base. Proved: zero always raises; a negative step raises if between base and position some bottle is at least twice the step away. Not decided: negative steps between these (empty arrays in numba)."
  },
  {
   "property": "C175",
   "status": "partial",
   "theorems": [
    "MixedLayer.mixedLayer_pad",
    "Stability.countPairs_pad",
    "Stability.castStep_pad",
    "Stability.countInterp_pad_partial",
    "Stability.countInterp_pad_false",
    "Label.veronis_pad",
    "Same.nanLaws_fl",
    "Same.nanLaws_rfl"
   ],
   "note": "Violated by count_unstable with an interpolant: it tests the deepest bottle only if there is a level below it (countInterp_pad_false; exactly this difference, countInterp_pad_partial). Proved for the others."
  },
  {
   "property": "C176",
   "status": "proved",
   "theorems": [
    "Interp.linear_local",
    "Interp.pchip_local",
    "Interp.local_sharp"
   ],
   "note": "Any rounding of the arithmetic (ColR). local_sharp shows on both sides that the reach cannot be smaller."
  },
  {
   "property": "C177",
   "status": "proved",
   "theorems": [
    "Interp.linear_window",
    "Interp.pchip_window",
    "VertSolve.potential_window",
    "VertSolve.anomaly_window",
    "VertSolve.ntp_window",
    "VertSolve.omega_window",
    "VertSolve.window_unstable"
   ],
   "note": "Interpolants: any rounding, to the last bit. Surfaces and links: exact arithmetic with the accuracy of the solver; window_unstable shows that stratification is needed."
  },
  {
   "property": "C178",
   "status": "proved",
   "theorems": [
    "Label.veronis_window",
    "Label.veronis_window_top",
    "Label.veronis_window_sharp"
   ],
   "note": "exact arithmetic; casts whose data are finite from the top bottle down to a bottle; bottles may have different indices in the two casts; sharpness by witnesses"
  },
  {
   "property": "C179",
   "status": "proved",
   "theorems": [
    "MixedLayer.mixed_layer_pchip",
    "MixedLayer.mixed_layer_pchip_mono",
    "MixedLayer.mixed_layer_window"
   ],
   "note": "exact real arithmetic; linear interpolation: C61"
  },
  {
   "property": "C18",
   "status": "proved",
   "theorems": [
    "Graph.edgesToCsr_spec",
    "Graph.edgesToCsr_symm",
    "Graph.edgesToCsr_mem",
    "Graph.numNodes_spec"
   ],
   "note": "All accesses in range is part of edgesToCsr_spec (the model reports out of range accesses)."
  },
  {
   "property": "C180",
   "status": "proved",
   "theorems": [
    "Label.veronis_refine",
    "Label.veronis_refine_limit",
    "Label.veronis_refine_differs"
   ],
   "note": "Linear interpolation in exact arithmetic; the last theorem is a witness that the labels do differ at a finite step size."
  },
  {
   "property": "C181",
   "status": "proved",
   "theorems": [
    "VertSolve.trajectory_window"
   ],
   "note": "Exact arithmetic. The first section is sloped in the sense of C132 in both directions; the second only needs to be stratified."
  },
  {
   "property": "C182",
   "status": "partial",
   "theorems": [
    "Deriv.pvalZ_nat",
    "Deriv.pvalZ_neg",
    "Deriv.interp_order_partial",
    "Deriv.ppval_order",
    "Deriv.negative_order_accepted"
   ],
   "note": "Violated for precomputed coefficients (out-of-bounds read) and outside the data (NaN, no exception); proved for on-the-fly interpolation within the data."
  },
  {
   "property": "C183",
   "status": "proved",
   "theorems": [
    "Isopycnal.solve_separable",
    "Isopycnal.isopycnal_separable",
    "Isopycnal.isoSurf_separable"
   ],
   "note": "Exact arithmetic. The function whose root is sought is the same for all kinds and references (resid); casts are land or have finite data (Fine)."
  },
  {
   "property": "C184",
   "status": "proved",
   "theorems": [
    "Same.line_interp",
    "Same.SameLines.same",
    "Same.ntp_straight",
    "Same.trajectory_straight",
    "Omega.omegaSurf_straight",
    "Isopycnal.isoSurf_straight"
   ],
   "note": "for the exact instance"
  },
  {
   "property": "C185",
   "status": "proved",
   "theorems": [
    "Isopycnal.isopycnal_repin",
    "Isopycnal.isoSurf_repin"
   ],
   "note": "exact real arithmetic with the accuracy of the solver"
  },
  {
   "property": "C186",
   "status": "proved",
   "theorems": [
    "Isopycnal.isopycnal_tile",
    "Isopycnal.isopycnal_tile_pin",
    "Isopycnal.isoSurf_tile",
    "Isopycnal.isoSurf_tile_pin"
   ],
   "note": "Any FloatLike arithmetic, so also bitwise in floating point."
  },
  {
   "property": "C187",
   "status": "proved",
   "theorems": [
    "Isopycnal.isopycnal_pins"
   ],
   "note": "Exact arithmetic; the accuracy of the root finder is included (2(2 eps |p| + tol))."
  },
  {
   "property": "C188",
   "status": "proved",
   "theorems": [
    "Grid.one_tile",
    "Omega.one_tile_links",
    "Omega.omegaSurf_one_tile"
   ],
   "note": "exact arithmetic for omega_surf; grid statement for any number type; what xgcm pads with is given by edgeX and edgeY"
  },
  {
   "property": "C189",
   "status": "proved",
   "theorems": [
    "Omega.graph_round",
    "Omega.omegaSurf_graph_round",
    "Omega.rect_simple_links",
    "Graph.graph_round_repeated"
   ],
   "note": "exact arithmetic; matrices as dense arrays (the restriction of issymmetric to dense arrays is not modelled); graph_round_repeated is the contrast for repeated edges"
  },
  {
   "property": "C19",
   "status": "proved",
   "theorems": [
    "Grid.rect_mem",
    "Grid.rect_count",
    "Grid.rect_simple",
    "Grid.rect_simple_small"
   ],
   "note": "Each adjacency once requires periodic dimensions of length at least 3 (rect_simple_small shows the others)."
  },
  {
   "property": "C190",
   "status": "proved",
   "theorems": [
    "Grid.tiled",
    "Omega.tiled_links",
    "Omega.omegaSurf_tiled"
   ],
   "note": "exact arithmetic for omega_surf; grid statement for any number type; what xgcm pads with at tile edges is given by blockX and blockY (tiles meeting without rotation)"
  },
  {
   "property": "C191",
   "status": "proved",
   "theorems": [
    "Bfs.wetPerim_land",
    "Omega.step_land",
    "Omega.omega_land",
    "Omega.omegaSurf_land_links",
    "Omega.omegaSurf_land_periodic",
    "Omega.few_of_nan",
    "Omega.land_inside_matters"
   ],
   "note": "Equality of results and exceptions in any arithmetic with NanLaws (proved for exact and rounded arithmetic). The neutrality error norms among the diagnostics are a parameter of the model and are not compared. Land in the middle instead of at the end does not suffice (land_inside_matters)."
  },
  {
   "property": "C192",
   "status": "proved",
   "theorems": [
    "Omega.omegaSurf_land_rows",
    "Omega.omegaSurf_rect_rows",
    "Omega.rectE_rows",
    "Omega.omegaSurf_rows"
   ],
   "note": "omegaSurf_land_rows is the property for any grid; omegaSurf_rect_rows the case of rectilinear grids. An initial array must be one to which interpolation raises no exception at the casts of the smaller ocean."
  },
  {
   "property": "C193",
   "status": "proved",
   "theorems": [
    "Omega.omegaSurf_behind_land",
    "Omega.omegaSurf_land_data"
   ],
   "note": "Unlike C153 the set may be linked with the rest, if only across land. An initial array must be one to which interpolation raises no exception in the second ocean."
  },
  {
   "property": "C194",
   "status": "proved",
   "theorems": [
    "Omega.omegaSurf_crop",
    "Omega.omegaSurf_rect_crop",
    "Omega.rectE_crop",
    "Omega.rectE_coast"
   ],
   "note": "omegaSurf_crop is the property for any grid; omegaSurf_rect_crop the case of rectilinear grids. An initial array must be one to which interpolation raises no exception on the whole ocean."
  },
  {
   "property": "C195",
   "status": "proved",
   "theorems": [
    "Omega.omega_emb",
    "Omega.omegaSurf_land_margin",
    "Omega.omegaSurf_rect_margin",
    "Omega.omega_back",
    "Omega.omegaSurf_land_trim",
    "Omega.omegaSurf_rect_trim"
   ],
   "note": "Both directions: margins may be added and cut off. The casts must be found in the same order (with margins on a rectilinear grid they are). Links within land do not matter."
  },
  {
   "property": "C196",
   "status": "proved",
   "theorems": [
    "Omega.omegaSurf_rect_window"
   ],
   "note": "both directions; the coast is a condition on pairs of neighbouring casts, so the border may run along land on either side"
  },
  {
   "property": "C20",
   "status": "proved",
   "theorems": [
    "Grid.rect_aligned",
    "Grid.rect_roundtrip",
    "Grid.broadcastTo_spec"
   ],
   "note": ""
  },
  {
   "property": "C21",
   "status": "proved",
   "theorems": [
    "Grid.tri_mem",
    "Grid.tri_aligned",
    "Grid.tri_roundtrip"
   ],
   "note": ""
  },
  {
   "property": "C22",
   "status": "partial",
   "theorems": [
    "Grid.tri_padded_false",
    "Grid.tri_unpadded_partial"
   ],
   "note": "Violated: padded data raises ValueError for every grid (broadcast precedes the trimming)."
  },
  {
   "property": "C23",
   "status": "partial",
   "theorems": [
    "Grid.xgcm_swapped_false",
    "Grid.xgcm_swapped_witness",
    "Grid.xgcm_isotropic_partial",
    "Grid.xgcm_scalar_false"
   ],
   "note": "Violated: distances of the two dimensions are exchanged for every grid; float arguments (the default) raise AttributeError. The neighbour arrays from the xgcm library are inputs."
  },
  {
   "property": "C24",
   "status": "proved",
   "theorems": [
    "Lib.aggsum_spec",
    "Lib.aggsum_exact",
    "Lib.divergence_spec",
    "Lib.divergence_sum"
   ],
   "note": "aggsum also with any rounding."
  },
  {
   "property": "C25",
   "status": "proved",
   "theorems": [
    "Bfs.bfs_component"
   ],
   "note": "every graph, root and mask"
  },
  {
   "property": "C26",
   "status": "proved",
   "theorems": [
    "Bfs.bfs_order"
   ],
   "note": "every graph, root and mask"
  },
  {
   "property": "C27",
   "status": "proved",
   "theorems": [
    "Bfs.bfsWet_spec",
    "Bfs.bfsWet_dry_root",
    "Bfs.bfsWet_neutral",
    "Bfs.ofCasts_data",
    "Bfs.bfsWet_two_data"
   ],
   "note": "any arithmetic; bfsWet_neutral over the reals with the modelled NTP"
  },
  {
   "property": "C28",
   "status": "proved",
   "theorems": [
    "Bfs.perim_queue",
    "Bfs.perim_garbage"
   ],
   "note": "array program refines a two-list program"
  },
  {
   "property": "C29",
   "status": "proved",
   "theorems": [
    "Bfs.wetPerim_spec",
    "Bfs.PerimSpec.mean",
    "Bfs.wetPerim_count",
    "Bfs.PerimSpec.two_data",
    "Bfs.perim_neutral",
    "Bfs.ntpP_eq"
   ],
   "note": "any arithmetic; the exact count in exact arithmetic"
  },
  {
   "property": "C30",
   "status": "partial",
   "theorems": [
    "Bfs.perim_mixed_layer_false",
    "Bfs.perim_mixed_layer_partial"
   ],
   "note": "violated (line 339 compares with the mixed layer of the neighbour); proved when neighbours share the mixed layer"
  },
  {
   "property": "C31",
   "status": "partial",
   "theorems": [
    "Bfs.perim_order_false",
    "Bfs.perim_order_partial"
   ],
   "note": "violated (witness); proved for one pass with non-adjacent perimeter casts"
  },
  {
   "property": "C32",
   "status": "partial",
   "theorems": [
    "Bfs.perim_exhaustive_false",
    "Bfs.perim_exhaustive_partial"
   ],
   "note": "violated (witness); proved for links from the component of the root"
  },
  {
   "property": "C33",
   "status": "proved",
   "theorems": [
    "Ntp.epsErr_reverse",
    "Ntp.epsErr_zero",
    "Ntp.epsErr_value",
    "Ntp.epsErr_nan",
    "Ntp.epsilonErrors_local"
   ],
   "note": "Antisymmetry for every arithmetic with the named sign symmetries."
  },
  {
   "property": "C34",
   "status": "proved",
   "theorems": [
    "Ntp.normsOf_value",
    "Ntp.normsOf_perm",
    "Ntp.normsOf_drop_nan",
    "Ntp.normsOf_reverse",
    "Ntp.normsOf_order",
    "Ntp.norms_eq",
    "Ntp.norms_returns",
    "Ntp.norms_value",
    "Ntp.norms_perm",
    "Ntp.norms_reverse"
   ],
   "note": "Exact arithmetic; order of the norms over the reals (Cauchy-Schwarz)."
  },
  {
   "property": "C35",
   "status": "partial",
   "theorems": [
    "Ntp.epsilonErrors_default_partial",
    "Ntp.norms_default_false",
    "Omega.omegaSurf_nodist_false"
   ],
   "note": "Violated: ntp_epsilon_errors_norms raises KeyError on every such grid (norms_default_false). ntp_epsilon_errors does take 1."
  },
  {
   "property": "C36",
   "status": "proved",
   "theorems": [
    "Traj.ntp_spec",
    "Traj.ntp_finds",
    "Traj.ntp_few",
    "Traj.ntp_nan_together"
   ],
   "note": "over the reals; NaN structure in any arithmetic"
  },
  {
   "property": "C37",
   "status": "proved",
   "theorems": [
    "Traj.trajectory_spec",
    "Traj.trajectory_prefix",
    "Traj.trajectory_length",
    "Traj.linked_unique"
   ],
   "note": "any arithmetic"
  },
  {
   "property": "C38",
   "status": "partial",
   "theorems": [
    "Traj.trajectory_nan_structure_false",
    "Traj.trajectory_nan_structure_partial"
   ],
   "note": "false when p0 is outside the first cast (witness); proved when it is inside"
  },
  {
   "property": "C39",
   "status": "proved",
   "theorems": [
    "VertSolve.potential_spec",
    "VertSolve.anomaly_spec",
    "VertSolve.vertsolve1_few",
    "VertSolve.vertsolve_pointwise"
   ],
   "note": "over the reals; independence in any arithmetic"
  },
  {
   "property": "C40",
   "status": "proved",
   "theorems": [
    "VertSolve.omega_zero",
    "VertSolve.omega_nan",
    "VertSolve.omega_spec",
    "VertSolve.vertsolveOmega_pointwise"
   ],
   "note": "over the reals; the rest in any arithmetic"
  },
  {
   "property": "C41",
   "status": "proved",
   "theorems": [
    "Omega.omega_pinned",
    "Omega.step_pinned",
    "Omega.poisson_pinSolver",
    "Omega.gradient_pinSolver",
    "Omega.demo_run",
    "Omega.demo_ok",
    "Omega.demo_solver"
   ],
   "note": "any arithmetic; every number of passes, wetting and mixed layer; for the gradient formulation assumes x - x = 0 for the value lsqr returns at the reference cast"
  },
  {
   "property": "C42",
   "status": "proved",
   "theorems": [
    "Omega.omega_iterations",
    "Omega.omega_no_tolerance",
    "Omega.omegaSurf_iterations"
   ],
   "note": "any arithmetic; omega_no_tolerance in exact arithmetic"
  },
  {
   "property": "C43",
   "status": "partial",
   "theorems": [
    "Omega.omega_diags_partial",
    "Omega.omega_diags_false",
    "Omega.demo_run"
   ],
   "note": "violated on every run: the diagnostics of the last pass (other than e_RMS, e_MAV) are cut off; what is reported is proved to be right"
  },
  {
   "property": "C44",
   "status": "partial",
   "theorems": [
    "Omega.omega_region_nonempty_partial",
    "Omega.omega_region_empty_false",
    "Omega.demo_index",
    "Omega.poisson_total",
    "Omega.gradient_total",
    "OmegaMat.empty_region"
   ],
   "note": "violated when the pinning point is above the mixed layer: IndexError in the second pass; otherwise proved"
  },
  {
   "property": "C45",
   "status": "proved",
   "theorems": [
    "OmegaMat.poisson_spec",
    "OmegaMat.poisson_single",
    "OmegaMat.balanced_unique",
    "OmegaMat.demo_region",
    "OmegaMat.exact_solvers_exist"
   ],
   "note": "exact arithmetic over any ordered field, every region; spsolve assumed to return the solution of a uniquely solvable system"
  },
  {
   "property": "C46",
   "status": "proved",
   "theorems": [
    "OmegaMat.gradient_eq_poisson",
    "OmegaMat.poisson_minimises"
   ],
   "note": "exact arithmetic; lsqr assumed to return the unique minimiser"
  },
  {
   "property": "C47",
   "status": "partial",
   "theorems": [
    "Isopycnal.check_iff",
    "Isopycnal.check_errors",
    "Isopycnal.determined_partial",
    "Isopycnal.check_isoval_without_ref_false",
    "Isopycnal.check_pin_p_without_cast_false"
   ],
   "note": "Violated: isoval and pin without ref, and pin_p without pin_cast, pass the checks and fail later. All other combinations proved."
  },
  {
   "property": "C48",
   "status": "partial",
   "theorems": [
    "Isopycnal.pin_unused_false",
    "Isopycnal.pin_unused_partial"
   ],
   "note": "Violated: the surface is overwritten at the pinning cast. Proved for all other casts."
  },
  {
   "property": "C49",
   "status": "proved",
   "theorems": [
    "Label.veronis_integral",
    "Label.veronis_base",
    "Label.veronis_linear_eos",
    "Label.veronis_outside",
    "Label.veronis_below_bottom",
    "Label.good_linear",
    "Label.good_pchip"
   ],
   "note": "exact arithmetic; the NaN clause for any arithmetic"
  },
  {
   "property": "C50",
   "status": "proved",
   "theorems": [
    "Jmd95.rho_eq",
    "Jmd95.rhoST_derivatives",
    "Jmd95.rhoP_derivative"
   ],
   "note": "at s = 0 the salinity derivative is one-sided; where the denominators vanish the functions raise or return infinities and nothing is claimed"
  },
  {
   "property": "C51",
   "status": "proved",
   "theorems": [
    "Jmdfwg06.rho_eq",
    "Jmdfwg06.rhoST_derivatives",
    "Jmdfwg06.rhoP_derivative"
   ],
   "note": "at s = 0 the salinity derivative is one-sided; nothing is claimed where the denominator vanishes"
  },
  {
   "property": "C52",
   "status": "proved",
   "theorems": [
    "Gsw.gsw_derivatives"
   ],
   "note": "for all SA >= 0 (SA < 0: see C92)"
  },
  {
   "property": "C53",
   "status": "proved",
   "theorems": [
    "Gsw.gsw_derivatives"
   ],
   "note": "for all SA >= 0"
  },
  {
   "property": "C54",
   "status": "proved",
   "theorems": [
    "EosTools.bsq_deriv_p",
    "EosTools.bsq_deriv_order",
    "EosTools.bsq_deriv_st",
    "EosTools.make_eos_derivatives"
   ],
   "note": ""
  },
  {
   "property": "C55",
   "status": "proved",
   "theorems": [
    "MakePP.make_pp_resolves",
    "MakePP.make_pp_injective",
    "MakePP.callers_accepted"
   ],
   "note": ""
  },
  {
   "property": "C56",
   "status": "partial",
   "theorems": [
    "Lib.findFirstNan_spec",
    "Lib.takeFill_spec",
    "Lib.valAt_spec_partial",
    "Lib.valAt_1d",
    "Lib.valAt_int",
    "Lib.valAt_length_one_false"
   ],
   "note": "find_first_nan and take_fill in full. val_at raises when a horizontal dimension has length 1 (valAt_length_one_false)."
  },
  {
   "property": "C57",
   "status": "partial",
   "theorems": [
    "Lib.valAt_spec_partial",
    "Lib.valAt_1d",
    "Lib.valAt_int",
    "Lib.valAt_pure_false"
   ],
   "note": "Violated for negative int k (valAt_pure_false); holds for arrays and nonnegative ints."
  },
  {
   "property": "C58",
   "status": "partial",
   "theorems": [
    "Graph.buildGridMat_spec",
    "Graph.buildGridMat_direction",
    "Graph.buildGridDict_spec_partial",
    "Graph.buildGridDict_false"
   ],
   "note": "Matrix case proved in full. Dict case: proved when both matrices are numerically symmetric; with equal sparsity structure but only one numerically symmetric the call raises (buildGridDict_false)."
  },
  {
   "property": "C59",
   "status": "proved",
   "theorems": [
    "Stability.cast_stable_unchanged",
    "Stability.cast_short_unchanged",
    "Stability.cast_frame",
    "Stability.cast_stabilised",
    "Stability.jac_is_gradient"
   ],
   "note": "any arithmetic for the first four; the minimiser is a parameter, feasibility of its point is the hypothesis of cast_stabilised"
  },
  {
   "property": "C60",
   "status": "partial",
   "theorems": [
    "Stability.stabilize_lost",
    "Stability.stabilize_lost_dtype",
    "Stability.stabilize_in_place_partial"
   ],
   "note": "violated: C-ordered arrays with the vertical dimension not last, or not float64, are never mutated; the in-place part holds for float64, C order, vertical last"
  },
  {
   "property": "C61",
   "status": "proved",
   "theorems": [
    "MixedLayer.mixed_layer_spec",
    "MixedLayer.mixed_layer_mono"
   ],
   "note": "linear interpolation, exact arithmetic"
  },
  {
   "property": "C62",
   "status": "proved",
   "theorems": [
    "Synthocean.pressure_levels",
    "Synthocean.salinity_nan_iff",
    "Synthocean.temperature_range"
   ],
   "note": "with at least two levels and a grid on which temperature varies; smaller shapes are C98"
  },
  {
   "property": "C63",
   "status": "proved",
   "theorems": [
    "Fzero.brentLoop_sign_change_any_arithmetic"
   ],
   "note": "any arithmetic"
  },
  {
   "property": "C64",
   "status": "partial",
   "theorems": [
    "Interp.validRange_doc_false",
    "Interp.validRange_alone_partial"
   ],
   "note": "the documented sentence is false (witness); what holds instead is proved"
  },
  {
   "property": "C65",
   "status": "partial",
   "theorems": [
    "Traj.ntp_nan_pressure_hangs",
    "Traj.guessToBounds_nan_guess_hangs",
    "Traj.trajectory_nan_structure_partial"
   ],
   "note": "violated: a NaN bottle pressure makes the search loop forever (proved for every number of passes); neutral_trajectory on well formed casts does return"
  },
  {
   "property": "C66",
   "status": "proved",
   "theorems": [
    "Bfs.bfsWet_spec"
   ],
   "note": "fields component and exhaustive of WetSpec"
  },
  {
   "property": "C67",
   "status": "partial",
   "theorems": [
    "Bfs.wet_one_ntp_per_cast_false",
    "Bfs.bfsWet_spec"
   ],
   "note": "violated: failed links are retried from every wet neighbour (witness); only one successful link per cast is kept"
  },
  {
   "property": "C68",
   "status": "proved",
   "theorems": [
    "Graph.toGraph_symm",
    "Graph.toGraph_weight",
    "Graph.toGraph_support",
    "Graph.toGraph_weight_false"
   ],
   "note": "toGraph_weight_false: repeated edges and self loops have their weights added, unlike documented."
  },
  {
   "property": "C69",
   "status": "proved",
   "theorems": [
    "Graph.binaryFcn_spec"
   ],
   "note": "Node numbers in range, values of a type that holds the results; the others are C170."
  },
  {
   "property": "C70",
   "status": "proved",
   "theorems": [
    "Lib.processVertDim_spec",
    "Lib.contiguousCasts_spec",
    "Lib.processCasts_spec",
    "Lib.processVertDim_out_of_range"
   ],
   "note": ""
  },
  {
   "property": "C71",
   "status": "partial",
   "theorems": [
    "Lib.processPinCast_partial",
    "Lib.processPinCast_order_false",
    "Lib.processPinCast_nearest_false"
   ],
   "note": "Violated when the dict is in another order than the dimensions."
  },
  {
   "property": "C72",
   "status": "proved",
   "theorems": [
    "Lib.processWrap_spec",
    "Lib.processWrap_two"
   ],
   "note": ""
  },
  {
   "property": "C73",
   "status": "partial",
   "theorems": [
    "Grid.tri_fold_twice",
    "Grid.tri_mem"
   ],
   "note": "Violated: each adjacency across the fold is listed twice, for all sizes."
  },
  {
   "property": "C74",
   "status": "proved",
   "theorems": [
    "Grid.xgcm_edges",
    "Grid.xgcm_roundtrip"
   ],
   "note": "The xgcm library is not modelled."
  },
  {
   "property": "C75",
   "status": "proved",
   "theorems": [
    "Isopycnal.isopycnal_pinned",
    "Isopycnal.isopycnal_pointwise",
    "Isopycnal.pinST_spec"
   ],
   "note": "pinST_spec also shows that a pin out of range gives NaN salinity with a finite pressure."
  },
  {
   "property": "C76",
   "status": "proved",
   "theorems": [
    "Isopycnal.isopycnal_on_isovalue"
   ],
   "note": "any arithmetic"
  },
  {
   "property": "C77",
   "status": "proved",
   "theorems": [
    "OmegaMat.poisson_neutral"
   ],
   "note": "exact arithmetic"
  },
  {
   "property": "C78",
   "status": "proved",
   "theorems": [
    "Omega.step_region",
    "Omega.region_connected",
    "Omega.omega_connected"
   ],
   "note": "step_region in any arithmetic; connectivity in exact arithmetic on graphs listing each edge from both ends"
  },
  {
   "property": "C79",
   "status": "proved",
   "theorems": [
    "Omega.step_neutral"
   ],
   "note": "exact arithmetic, exact solver"
  },
  {
   "property": "C80",
   "status": "proved",
   "theorems": [
    "OmegaMat.poisson_reduces"
   ],
   "note": "exact arithmetic"
  },
  {
   "property": "C81",
   "status": "partial",
   "theorems": [
    "Omega.omega_zero_partial",
    "Omega.omega_zero_false",
    "Omega.demo_unbound"
   ],
   "note": "violated by every run with diagnostics (the default): it never returns; without diagnostics the initial surface comes back"
  },
  {
   "property": "C82",
   "status": "proved",
   "theorems": [
    "Label.veronis_linear_eos"
   ],
   "note": "exact arithmetic"
  },
  {
   "property": "C83",
   "status": "proved",
   "theorems": [
    "Label.veronis_outside",
    "Label.veronis_below_bottom"
   ],
   "note": "veronis_outside in any arithmetic"
  },
  {
   "property": "C84",
   "status": "proved",
   "theorems": [
    "Label.veronis_converges",
    "Label.veronis_pressure_independent",
    "Label.trap_tendsto"
   ],
   "note": "real arithmetic"
  },
  {
   "property": "C85",
   "status": "partial",
   "theorems": [
    "Label.veronis_nan_padded_false",
    "Label.veronis_outside"
   ],
   "note": "violated: witness. int(ceil(NaN)) is modelled as a failure."
  },
  {
   "property": "C86",
   "status": "proved",
   "theorems": [
    "Stability.jac_is_gradient",
    "Stability.objective_zero_iff"
   ],
   "note": "exact arithmetic"
  },
  {
   "property": "C87",
   "status": "proved",
   "theorems": [
    "Stability.count_zero_iff",
    "Stability.count_zero_after"
   ],
   "note": "exact arithmetic"
  },
  {
   "property": "C88",
   "status": "partial",
   "theorems": [
    "Stability.count_interp_spec",
    "Stability.count_interp_ignores_deepest",
    "Stability.count_interp_false"
   ],
   "note": "violated; what is counted instead is proved for every cast"
  },
  {
   "property": "C89",
   "status": "proved",
   "theorems": [
    "Stability.loop_spec"
   ],
   "note": "any arithmetic"
  },
  {
   "property": "C90",
   "status": "partial",
   "theorems": [
    "MixedLayer.dens_get",
    "MixedLayer.mixed_layer_inversion_false"
   ],
   "note": "first half proved for all; second half violated, witness"
  },
  {
   "property": "C91",
   "status": "proved",
   "theorems": [
    "MixedLayer.bottle_some_iff",
    "MixedLayer.bottle_minus_one"
   ],
   "note": ""
  },
  {
   "property": "C92",
   "status": "partial",
   "theorems": [
    "Gsw.gsw_negative",
    "Gsw.gsw_negative_derivative_false"
   ],
   "note": "clamping proved for all; the derivative claim is violated for every negative salinity (stated at CT = p = 0)"
  },
  {
   "property": "C93",
   "status": "proved",
   "theorems": [
    "Jmd95.jmd95_nan",
    "Jmdfwg06.jmdfwg06_nan",
    "Gsw.gsw_nan",
    "Gsw.gsw_finite"
   ],
   "note": ""
  },
  {
   "property": "C94",
   "status": "proved",
   "theorems": [
    "Gsw.gsw_ocean",
    "Gsw.gsw_mono_s",
    "Gsw.gsw_mono_p",
    "Jmd95.jmd95_ocean",
    "Jmd95.jmd95_mono_s",
    "Jmd95.jmd95_mono_p",
    "Jmdfwg06.jmdfwg06_ocean",
    "Jmdfwg06.jmdfwg06_mono_s",
    "Jmdfwg06.jmdfwg06_mono_p"
   ],
   "note": "exact real arithmetic"
  },
  {
   "property": "C95",
   "status": "partial",
   "theorems": [
    "EosTools.bsq_not_idempotent_false",
    "EosTools.process_fn"
   ],
   "note": "violated; witness theorem for every function that distinguishes the two depths"
  },
  {
   "property": "C96",
   "status": "proved",
   "theorems": [
    "EosTools.make_eos_accepts",
    "EosTools.process_str",
    "EosTools.process_fn",
    "EosTools.process_refuses"
   ],
   "note": ""
  },
  {
   "property": "C97",
   "status": "partial",
   "theorems": [
    "MakePP.optional_order_partial",
    "MakePP.optional_order_false"
   ],
   "note": "violated by the two vectorised linear functions; proved for all others"
  },
  {
   "property": "C98",
   "status": "partial",
   "theorems": [
    "Synthocean.pressure_single_false",
    "Synthocean.temperature_single_false",
    "Synthocean.pressure_levels",
    "Synthocean.temperature_range"
   ],
   "note": "violated for the shapes named; proved for all others"
  },
  {
   "property": "C99",
   "status": "proved",
   "theorems": [
    "Synthocean.salinity_anomaly",
    "Synthocean.zonally_uniform",
    "Synthocean.total_area"
   ],
   "note": ""
  }
 ]
}
