#!/usr/bin/env python3
"""Writes /verif/MANIFEST.json; one entry per property, in order."""
import json
claims = []
def c(pid, status, theorems, note=""):
    claims.append({"property": pid, "status": status, "theorems": theorems.split(), "note": note})

c("C01", "proved", "Fzero.brent_sign_change Fzero.brent_root_nearby", "exact arithmetic over any ordered field / reals")
c("C02", "proved", "Fzero.brent_terminates", "exact arithmetic")
c("C03", "proved", "Fzero.brent_nan_iff Fzero.brent_no_exception Fzero.brent_nan_bounds", "exact arithmetic")
c("C04", "proved", "Fzero.guessToBounds_spec Fzero.guessToBounds_brent_finite", "exact arithmetic")
c("C05", "proved", "Fzero.guessToBounds_spec Fzero.guessToBounds_finds", "exact arithmetic")
c("C06", "proved", "Fzero.brentGuess_spec Fzero.brentGuess_finds_root", "exact arithmetic")

def ns(n, t): return " ".join(n + "." + x for x in t.split()) + " "
I = "Interp"
c("C08", "proved", ns(I, "validRange_spec validRange2_spec IsFirstBlock.unique"), "any arithmetic in which finite numbers are not NaN")
c("C09", "proved", ns(I, "ppval1_spec ppval1_few pieceIndex_range"))
c("C10", "proved", ns(I, "linear_interpolates pchip_interpolates"), "exact arithmetic")
c("C11", "proved", ns(I, "linear_chord linear_between"), "exact arithmetic")
c("C12", "proved", ns(I, "pchip_shape"), "exact arithmetic")
c("C13", "proved", ns(I, "pchip_C1"), "over the reals")
c("C14", "proved", ns(I, "pchip_onthefly_eq_table linear_onthefly_eq_table"), "see the laws named in the theorems")
c("C15", "proved", ns(I, "ppval1Two_eq ppval1Two_fst ppinterp1Two_eq ppval1Nonan_trim ppval1NonanTwo_eq pchipNonan_eq"))
c("C16", "proved", ns(I, "pval_derivative pval_high"), "exact arithmetic")
c("C17", "proved", ns(I, "linear_padding pchip_padding"))
c("C64", "partial", ns(I, "validRange_doc_false validRange_alone_partial"), "the documented sentence is false (witness); what holds instead is proved")
T = "Traj"
V = "VertSolve"
c("C07", "partial", ns(T, "ntp_tol_doc_false ntp_spec"), "documented accuracy is false (concrete witness); ntp_spec proves the true accuracy, about twice tol_p")
c("C36", "proved", ns(T, "ntp_spec ntp_finds ntp_few ntp_nan_together"), "over the reals; NaN structure in any arithmetic")
c("C37", "proved", ns(T, "trajectory_spec trajectory_prefix trajectory_length linked_unique"), "any arithmetic")
c("C38", "partial", ns(T, "trajectory_nan_structure_false trajectory_nan_structure_partial"), "false when p0 is outside the first cast (witness); proved when it is inside")
c("C39", "proved", ns(V, "potential_spec anomaly_spec vertsolve1_few vertsolve_pointwise"), "over the reals; independence in any arithmetic")
c("C40", "proved", ns(V, "omega_zero omega_nan omega_spec vertsolveOmega_pointwise"), "over the reals; the rest in any arithmetic")
c("C65", "partial", ns(T, "ntp_nan_pressure_hangs guessToBounds_nan_guess_hangs trajectory_nan_structure_partial"), "violated: a NaN bottle pressure makes the search loop forever (proved for every number of passes); neutral_trajectory on well formed casts does return")
B = "Bfs"
c("C25", "proved", ns(B, "bfs_component"), "every graph, root and mask")
c("C26", "proved", ns(B, "bfs_order"), "every graph, root and mask")
c("C27", "proved", ns(B, "bfsWet_spec bfsWet_dry_root bfsWet_neutral ofCasts_data bfsWet_two_data"), "any arithmetic; bfsWet_neutral over the reals with the modelled NTP")
c("C28", "proved", ns(B, "perim_queue perim_garbage"), "array program refines a two-list program")
c("C29", "proved", ns(B, "wetPerim_spec PerimSpec.mean wetPerim_count PerimSpec.two_data perim_neutral ntpP_eq"), "any arithmetic; the exact count in exact arithmetic")
c("C30", "partial", ns(B, "perim_mixed_layer_false perim_mixed_layer_partial"), "violated (line 339 compares with the mixed layer of the neighbour); proved when neighbours share the mixed layer")
c("C31", "partial", ns(B, "perim_order_false perim_order_partial"), "violated (witness); proved for one pass with non-adjacent perimeter casts")
c("C32", "partial", ns(B, "perim_exhaustive_false perim_exhaustive_partial"), "violated (witness); proved for links from the component of the root")
c("C66", "proved", ns(B, "bfsWet_spec"), "fields component and exhaustive of WetSpec")
c("C67", "partial", ns(B, "wet_one_ntp_per_cast_false bfsWet_spec"), "violated: failed links are retried from every wet neighbour (witness); only one successful link per cast is kept")
c("C18","proved",ns("Graph","edgesToCsr_spec edgesToCsr_symm edgesToCsr_mem numNodes_spec"),"All accesses in range is part of edgesToCsr_spec (the model reports out of range accesses).")
c("C68","proved",ns("Graph","toGraph_symm toGraph_weight toGraph_support toGraph_weight_false"),"toGraph_weight_false: repeated edges and self loops have their weights added, unlike documented.")
c("C69","proved",ns("Graph","binaryFcn_spec"),"Node numbers in range, values of a type that holds the results; the others are C170.")
c("C58","partial",ns("Graph","buildGridMat_spec buildGridMat_direction buildGridDict_spec_partial buildGridDict_false"),"Matrix case proved in full. Dict case: proved when both matrices are numerically symmetric; with equal sparsity structure but only one numerically symmetric the call raises (buildGridDict_false).")
c("C33","proved",ns("Ntp","epsErr_reverse epsErr_zero epsErr_value epsErr_nan epsilonErrors_local"),"Antisymmetry for every arithmetic with the named sign symmetries.")
c("C34","proved",ns("Ntp","normsOf_value normsOf_perm normsOf_drop_nan normsOf_reverse normsOf_order norms_eq norms_returns norms_value norms_perm norms_reverse"),"Exact arithmetic; order of the norms over the reals (Cauchy-Schwarz).")
c("C35","partial",ns("Ntp","epsilonErrors_default_partial norms_default_false")+ns("Omega","omegaSurf_nodist_false"),"Violated: ntp_epsilon_errors_norms raises KeyError on every such grid (norms_default_false). ntp_epsilon_errors does take 1.")
c("C24","proved",ns("Lib","aggsum_spec aggsum_exact divergence_spec divergence_sum"),"aggsum also with any rounding.")
c("C56","partial",ns("Lib","findFirstNan_spec takeFill_spec valAt_spec_partial valAt_1d valAt_int valAt_length_one_false"),"find_first_nan and take_fill in full. val_at raises when a horizontal dimension has length 1 (valAt_length_one_false).")
c("C57","partial",ns("Lib","valAt_spec_partial valAt_1d valAt_int valAt_pure_false"),"Violated for negative int k (valAt_pure_false); holds for arrays and nonnegative ints.")
c("C70","proved",ns("Lib","processVertDim_spec contiguousCasts_spec processCasts_spec processVertDim_out_of_range"),"")
c("C71","partial",ns("Lib","processPinCast_partial processPinCast_order_false processPinCast_nearest_false"),"Violated when the dict is in another order than the dimensions.")
c("C72","proved",ns("Lib","processWrap_spec processWrap_two"),"")
c("C19","proved",ns("Grid","rect_mem rect_count rect_simple rect_simple_small"),"Each adjacency once requires periodic dimensions of length at least 3 (rect_simple_small shows the others).")
c("C20","proved",ns("Grid","rect_aligned rect_roundtrip broadcastTo_spec"),"")
c("C21","proved",ns("Grid","tri_mem tri_aligned tri_roundtrip"),"")
c("C22","partial",ns("Grid","tri_padded_false tri_unpadded_partial"),"Violated: padded data raises ValueError for every grid (broadcast precedes the trimming).")
c("C23","partial",ns("Grid","xgcm_swapped_false xgcm_swapped_witness xgcm_isotropic_partial xgcm_scalar_false"),"Violated: distances of the two dimensions are exchanged for every grid; float arguments (the default) raise AttributeError. The neighbour arrays from the xgcm library are inputs.")
c("C73","partial",ns("Grid","tri_fold_twice tri_mem"),"Violated: each adjacency across the fold is listed twice, for all sizes.")
c("C74","proved",ns("Grid","xgcm_edges xgcm_roundtrip"),"The xgcm library is not modelled.")
c("C47","partial",ns("Isopycnal","check_iff check_errors determined_partial check_isoval_without_ref_false check_pin_p_without_cast_false"),"Violated: isoval and pin without ref, and pin_p without pin_cast, pass the checks and fail later. All other combinations proved.")
c("C48","partial",ns("Isopycnal","pin_unused_false pin_unused_partial"),"Violated: the surface is overwritten at the pinning cast. Proved for all other casts.")
c("C75","proved",ns("Isopycnal","isopycnal_pinned isopycnal_pointwise pinST_spec"),"pinST_spec also shows that a pin out of range gives NaN salinity with a finite pressure.")
c("C76","proved",ns("Isopycnal","isopycnal_on_isovalue"),"any arithmetic")
c("C45","proved",ns("OmegaMat","poisson_spec poisson_single balanced_unique demo_region exact_solvers_exist"),"exact arithmetic over any ordered field, every region; spsolve assumed to return the solution of a uniquely solvable system")
c("C46","proved",ns("OmegaMat","gradient_eq_poisson poisson_minimises"),"exact arithmetic; lsqr assumed to return the unique minimiser")
c("C77","proved",ns("OmegaMat","poisson_neutral"),"exact arithmetic")
c("C41","proved",ns("Omega","omega_pinned step_pinned poisson_pinSolver gradient_pinSolver demo_run demo_ok demo_solver"),"any arithmetic; every number of passes, wetting and mixed layer; for the gradient formulation assumes x - x = 0 for the value lsqr returns at the reference cast")
c("C42","proved",ns("Omega","omega_iterations omega_no_tolerance omegaSurf_iterations"),"any arithmetic; omega_no_tolerance in exact arithmetic")
c("C43","partial",ns("Omega","omega_diags_partial omega_diags_false demo_run"),"violated on every run: the diagnostics of the last pass (other than e_RMS, e_MAV) are cut off; what is reported is proved to be right")
c("C44","partial",ns("Omega","omega_region_nonempty_partial omega_region_empty_false demo_index poisson_total gradient_total")+ns("OmegaMat","empty_region"),"violated when the pinning point is above the mixed layer: IndexError in the second pass; otherwise proved")
c("C78","proved",ns("Omega","step_region region_connected omega_connected"),"step_region in any arithmetic; connectivity in exact arithmetic on graphs listing each edge from both ends")
c("C79","proved",ns("Omega","step_neutral"),"exact arithmetic, exact solver")
c("C80","proved",ns("OmegaMat","poisson_reduces"),"exact arithmetic")
c("C81","partial",ns("Omega","omega_zero_partial omega_zero_false demo_unbound"),"violated by every run with diagnostics (the default): it never returns; without diagnostics the initial surface comes back")
c("C49","proved",ns("Label","veronis_integral veronis_base veronis_linear_eos veronis_outside veronis_below_bottom good_linear good_pchip"),"exact arithmetic; the NaN clause for any arithmetic")
c("C82","proved",ns("Label","veronis_linear_eos"),"exact arithmetic")
c("C83","proved",ns("Label","veronis_outside veronis_below_bottom"),"veronis_outside in any arithmetic")
c("C84","proved",ns("Label","veronis_converges veronis_pressure_independent trap_tendsto"),"real arithmetic")
c("C85","partial",ns("Label","veronis_nan_padded_false veronis_outside"),"violated: witness. int(ceil(NaN)) is modelled as a failure.")
c("C59","proved",ns("Stability","cast_stable_unchanged cast_short_unchanged cast_frame cast_stabilised jac_is_gradient"),"any arithmetic for the first four; the minimiser is a parameter, feasibility of its point is the hypothesis of cast_stabilised")
c("C60","partial",ns("Stability","stabilize_lost stabilize_lost_dtype stabilize_in_place_partial"),"violated: C-ordered arrays with the vertical dimension not last, or not float64, are never mutated; the in-place part holds for float64, C order, vertical last")
c("C61","proved",ns("MixedLayer","mixed_layer_spec mixed_layer_mono"),"linear interpolation, exact arithmetic")
c("C86","proved",ns("Stability","jac_is_gradient objective_zero_iff"),"exact arithmetic")
c("C87","proved",ns("Stability","count_zero_iff count_zero_after"),"exact arithmetic")
c("C88","partial",ns("Stability","count_interp_spec count_interp_ignores_deepest count_interp_false"),"violated; what is counted instead is proved for every cast")
c("C89","proved",ns("Stability","loop_spec"),"any arithmetic")
c("C90","partial",ns("MixedLayer","dens_get mixed_layer_inversion_false"),"first half proved for all; second half violated, witness")
c("C91","proved",ns("MixedLayer","bottle_some_iff bottle_minus_one"),"")
c("C50","proved",ns("Jmd95","rho_eq rhoST_derivatives rhoP_derivative"),"at s = 0 the salinity derivative is one-sided; where the denominators vanish the functions raise or return infinities and nothing is claimed")
c("C51","proved",ns("Jmdfwg06","rho_eq rhoST_derivatives rhoP_derivative"),"at s = 0 the salinity derivative is one-sided; nothing is claimed where the denominator vanishes")
c("C52","proved",ns("Gsw","gsw_derivatives"),"for all SA >= 0 (SA < 0: see C92)")
c("C53","proved",ns("Gsw","gsw_derivatives"),"for all SA >= 0")
c("C54","proved",ns("EosTools","bsq_deriv_p bsq_deriv_order bsq_deriv_st make_eos_derivatives"),"")
c("C55","proved",ns("MakePP","make_pp_resolves make_pp_injective callers_accepted"),"")
c("C92","partial",ns("Gsw","gsw_negative gsw_negative_derivative_false"),"clamping proved for all; the derivative claim is violated for every negative salinity (stated at CT = p = 0)")
c("C93","proved",ns("Jmd95","jmd95_nan")+ns("Jmdfwg06","jmdfwg06_nan")+ns("Gsw","gsw_nan gsw_finite"),"")
c("C94","proved",ns("Gsw","gsw_ocean gsw_mono_s gsw_mono_p")+ns("Jmd95","jmd95_ocean jmd95_mono_s jmd95_mono_p")+ns("Jmdfwg06","jmdfwg06_ocean jmdfwg06_mono_s jmdfwg06_mono_p"),"exact real arithmetic")
c("C95","partial",ns("EosTools","bsq_not_idempotent_false process_fn"),"violated; witness theorem for every function that distinguishes the two depths")
c("C96","proved",ns("EosTools","make_eos_accepts process_str process_fn process_refuses"),"")
c("C97","partial",ns("MakePP","optional_order_partial optional_order_false"),"violated by the two vectorised linear functions; proved for all others")
c("C62","proved",ns("Synthocean","pressure_levels salinity_nan_iff temperature_range"),"with at least two levels and a grid on which temperature varies; smaller shapes are C98")
c("C98","partial",ns("Synthocean","pressure_single_false temperature_single_false pressure_levels temperature_range"),"violated for the shapes named; proved for all others")
c("C99","proved",ns("Synthocean","salinity_anomaly zonally_uniform total_area"),"")
c("C100","proved",ns("Interp","pchip_slopes threePoint_parabola"),"")
c("C101","proved",ns("Interp","line_reproduced units_change"),"")
c("C102","partial",ns("Grid","neighbours_left_partial build_left_partial neighbours_reject build_shift neighbours_right neighbours_right_false neighbours_order_partial neighbours_order_false"),"Holds for ysh='left' (with either xsh). Violated for ysh='right' on every tile of at least 2x2 cells: the result of the grid ufunc is not transposed back, so entry (t,j,i) is the neighbour of (t,i,j). For other orders of dims (which the documentation allows) neighbours_order_partial gives the cases that hold (i last for im1; left shift or j last for jm1) and neighbours_order_false shows that (tile, i, j) gives wrong neighbours; xgcm's padding is a parameter.")
c("C103","partial",ns("Omega","omega_ml_partial omegaSurf_ml_partial omega_ml_false"),"False as documented: removal happens at the start of a pass, so the last pass can leave casts in the mixed layer, and wetting can bring casts back. Proved: once wetting has stopped, every cast found in the mixed layer before the last pass is NaN in the returned surface. Violated in general, with a concrete ocean as witness.")
c("C104","proved",ns("Omega","omegaSurf_spec omegaSurf_pinned omegaSurf_noml"),"Composition of the front end with the iteration. omegaSurf_pinned is for the Poisson formulation (for the gradient formulation see gradient_pinSolver, C41).")
c("C105","partial",ns("Omega","omegaSurf_int_partial omegaSurf_int_false omegaSurf_negative"),"False as documented: with two or more horizontal dimensions every int raises ValueError, and so does a tuple with a negative index. Proved for casts in a row.")
c("C106","proved",ns("Xarray","surf_labels surf_fits surf_mismatch"),"Assumes that T has the dimensions of S and that the vertical dimension has a coordinate (see C108).")
c("C107","partial",ns("Xarray","surf_attrs_partial surf_attrs_false"),"Violated: attributes of S that P has not (such as units) appear on p. Proved: attributes that P has are kept.")
c("C108","partial",ns("Xarray","surf_np_partial surf_nocoord_false surf_int_false"),"Violated: a vertical dimension without coordinate raises ValueError (drop_vars), and a vert_dim beyond the dimensions, taken modulo for ndarrays, raises IndexError.")
c("C109","proved",ns("Cache","calls_spec calls_error conc_spec makeVertsolve_history"),"functools.lru_cache is modelled after its documentation and source; keys that Python regards as equal are one key, and arguments are hashable.")
c("C110","proved",ns("Cache","not_recomputed recomputed_example"),"For one thread. recomputed_example shows that the bound of ten is sharp.")
c("C111","proved",ns("Isopycnal","isoSurf_spec"),"Composition of the front end with the vertical solves.")
c("C112","partial",ns("Isopycnal","isoSurf_tuple_partial isoSurf_list_false isoSurf_list_typing isoSurf_length"),"Violated for lists: numpy takes a list as fancy indices into the first dimension, so no call with a list and pin_p returns. Proved for tuples.")
c("C113","proved",ns("Gufunc","linear_interp_spec pchip_interp_spec linear_interp_two_spec pchip_interp_two_spec interpU_returns interpU_refuses coeffsU_ok coeffsU_returns coeffsU_refuses ppvalU_returns ppvalTwoU_returns ppvalTwoU_rejects vectorizeEos_spec vectorizeEos_returns bshapes_spec Broadcast.unique"),"numpy's rules for generalised ufuncs are modelled from its documentation; negative derivative orders are not modelled.")
c("C114","proved",ns("Gufunc","linear_table pchip_table"),"")
c("C115","partial",ns("Gufunc","coeffs_singleton_false coeffsU_returns"),"Violated for the last dimension. All other dimensions may be singletons (coeffsU_returns).")
c("C116","proved",ns("Gswc","gswc_derivatives"),"The GSW C library is a parameter; its documented derivatives are the hypothesis.")
c("C117","proved",ns("Stability","count_pairs_arrays count_interp_arrays"),"eos acts on arrays entry by entry (as vectorised functions do, C113).")
c("C118","proved",ns("Fzero","brent_rounded brent_rounded_no_exception")+ns("Rounding53","rnd53_std"),"rnd53_std: IEEE round-to-nearest-even with 53 bits meets the assumptions on rounding")
c("C119","proved",ns("Fzero","guessToBounds_rounded brentGuess_rounded brentGuess_rounded_near_root"),"")
c("C120","partial",ns("Fzero","brent_same_sign_false brent_rounded")+ns("Rounding53","rndNear_nearest rnd64_nearest"),"violated when f(a)*f(b) underflows to 0 (witness in gradual underflow arithmetic); holds without underflow (brent_rounded) and in exact arithmetic (C03); the two roundings are shown to be to nearest")
c("C121","proved",ns("Interp","linear_rounded"),"")
c("C122","partial",ns("Interp","linear_site_inexact pchip_site_inexact linear_rounded_first_partial linear_rounded_site_partial"),"violated in double precision: data (0,0),(25,7) at 25 give 7+2^-50; exact at the first site; elsewhere within the bound of C121")
c("C123","proved",ns("Interp","pchip_rounded pchip_rounded_onthefly"),"")
c("C124","proved",ns("Traj","ntp_rounded trajectory_rounded")+ns("VertSolve","potential_rounded anomaly_rounded omega_rounded"),"per cast; the equation of state is any function computed in rounded arithmetic")
c("C125","proved",ns("Traj","ntp_accurate Accurate.stable")+ns("VertSolve","potential_accurate anomaly_accurate omega_accurate"),"")
c("C126","proved",ns("Synthocean","longitudes latitudes distances areas"),"in real arithmetic")
c("C127","proved",ns("Omega","omega_wetting_window omega_no_wetting"),"any arithmetic")
c("C128","partial",ns("Omega","tol_units_false tol_units_partial tol_density"),"violated by a factor up to (density/1000)^2 for specific volume; exact for density")
c("C129","proved",ns("Jmd95","jmd95_rounded")+ns("Jmdfwg06","jmdfwg06_rounded")+ns("Gsw","gsw_rounded"),"laws assumed of the rounding: relative error at most 2^-53, monotone, odd; no underflow")
c("C130","proved",ns("Jmd95","jmd95_sensitivity jmd95_signs jmd95_solves")+ns("Jmdfwg06","jmdfwg06_sensitivity jmdfwg06_signs jmdfwg06_solves")+ns("Gsw","gsw_sensitivity gsw_signs gsw_solves"),"the equation of state is taken with NaN in place of ZeroDivisionError, which C129 shows does not occur on the range")
c("C131","proved",ns("VertSolve","Solved.order Solved.exists_iff potential_order anomaly_order piece_mono interp_mono interp_anti stable_of_monotone"),"Exact real arithmetic with the accuracy of the solver; stability is stated through the public interpolation functions")
c("C132","proved",ns("VertSolve","ntp_retrace trajectory_retrace"),"Exact real arithmetic with the accuracy of the solver; the example shows copies of a cast satisfy the hypotheses and goes there and back")
c("C133","proved",ns("Stability","count_rounded grad_rounded unstable_rounded count_zero_after_rounded")+ns("Jmd95","count_unstable")+ns("Jmdfwg06","count_unstable"),"jmd95 and jmdfwg06 are taken with NaN in place of ZeroDivisionError, which C129 excludes on the range")
c("C134","proved",ns("Bfs","wet_calls wet_work"),"The list of calculations is a ghost variable of the model")
c("C135","proved",ns("Ntp","epsErr_reverse_rounded epsErr_rounded epsErr_zero_rounded")+ns("Jmd95","epsErr_close epsErr_sign")+ns("Jmdfwg06","epsErr_close")+ns("Gsw","epsErr_close"),"The exponent range is unbounded in the model of rounding")
c("C136","proved",ns("OmegaMat","balanced_relabel Region.relabel poisson_solver gradient_solver solver_relabel")+ns("Omega","step_relabel loop_relabel omega_relabel"),"Exact arithmetic; sparse solvers assumed exact (spsolve solves, lsqr minimises), which is shown satisfiable; without wetting, whose result depends on the order of neighbours (C31). The hypothesis that every pass is posed is derived from static conditions in C137.")
c("C137","proved",ns("Omega","err_finite region_posed moved step_total loop_total run_spec interp_total wetting_total region_total omega_from omega_total omega_total_scalar"),"Exact real arithmetic, sparse solvers with any error bound, with or without wetting, from an array or from a scalar. omega_total also gives the hypothesis AllPosed of C136; an example runs a renumbered ocean through both.")
c("C138","proved",ns("OmegaMat","poisson_accuracy gradient_accuracy cost_accuracy correction_accuracy correction_sensitivity route_exists poisson_within gradient_within Solver.within"),"NearSolve and NearLsqr state what is asked of the solver on systems with a unique solution; exact solvers are the case eta = 0 or g = 0. Routes and imbalance are defined from the weighted edges and the errors only.")
c("C139","proved",ns("Omega","omegaSurf_total"),"Exact real arithmetic, sparse solvers with a bounded error, both formulations, scalar or array p_init, any vertical and any number of horizontal dimensions, wetting. The casts have one block of data with increasing pressure, or are land; links have positive lengths.")
c("C140","partial",ns("Omega","omegaSurf_dict_partial omegaSurf_dict_false omegaSurf_dict_vert_false"),"Violated if the dict contains vert_dim: mixed_layer is called on the rearranged matrix of casts, so that its vert_dim must be the last dimension whatever the data. Proved for dicts without it.")
c("C141","partial",ns("Omega","omegaSurf_intinit_false omegaSurf_floatinit_partial"),"Violated: an integer array p_init, as in the comment in the code (np.full((ni, nj), 1000)), raises ValueError since NaN cannot be stored in it. Proved for float64 arrays. float32 not modelled.")
c("C142","proved",ns("Omega","omega_diags_values pass_diags DiagSpec.order nanmean_holds nanmax_holds"),"Exact real arithmetic, runs on the well formed oceans of C137; for every pass but the last, whose entries are cut off (see C43).")
c("C143","proved",ns("UnitChange","ntp_units trajectory_units isopycnal_units bfsWet_units wetPerim_units poisson_units gradient_units epsilonErrors_units norms_units mixedLayer_units omega_units same_poisson same_gradient hom_solver_exists hom_lsqr_exists eos_exists veronis_units"),"Exact arithmetic; no hypothesis on casts or the equation of state. The external sparse solver is assumed homogeneous in the right-hand side (exact homogeneous solvers exist). Pressure has no offset: the stopping rule of brent uses |p|. The tests `eos(34.5, 3, 1000) < 1` that distinguish density from specific volume are not part of it (C128); in mixed_layer both equations of state are assumed to pass as density.")
c("C144","proved",ns("Omega","omega_restart omega_all_passes restart_mixed_layer"),"Exact real arithmetic. restart_mixed_layer is the witness (Fl ℚ, decide) that the condition on the mixed layer is needed. omega_all_passes gives a way to know that the uninterrupted run makes more than n passes.")
c("C145","proved",ns("Omega","omegaSurf_relabel rectGrid_links rect_symmetric rect_transposed omegaSurf_symmetric omegaSurf_transposed"),"Exact arithmetic, exact solvers, well-behaved casts (Call), wetting off. rectGrid_links shows that build_grid of a rectilinear grid has exactly the links used. DimSym covers identity, roll and flip. Example: ring of three casts with land, rolled by one, one side by the Poisson and the other by the gradient formulation.")
c("C146","proved",ns("Omega","quadratic_noThermobaricity pass_isopycnal omega_isopycnal IsoWithin.agrees IsoWithin.potential_anomaly omegaSurf_isopycnal"),"Exact arithmetic; the matrix solver is within b of the solution (b = 0 when exact). NoThermobaricity asks that the differences of density are those given by the derivatives midway, which quadratic_noThermobaricity shows for quadratics.")
c("C147","proved",ns("OmegaMat","eliminates_iff section_eliminates weights_do_not_matter")+ns("Omega","pass_section"),"Exact arithmetic, exact matrix solver. An example in the file shows a thermobaric triangle where no correction eliminates the errors.")
c("C148","proved",ns("Omega","omega_converges passes_converge pass_calm seos_thermobaric"),"Exact arithmetic; matrix solver within beta, vertical solver with its real tolerance. Density f(s,t) + a(p) s + d(p) t + g(p) with f quadratic, which includes the simplified equation of state of NEMO; not the 75-term GSW or Jackett-McDougall polynomials. An example meets all hypotheses and stops within four passes.")
c("C149","proved",ns("VertSolve","link_iso trajectory_isopycnal trajectory_path_independent acc_bound")+ns("Omega","wetted_isopycnal init_isopycnal"),"Exact arithmetic. `Splits` is the absence of thermobaricity; `IsoCast`/`StableCast` say that the cast is well formed and its density slope at most U; `OnIso` that a point is on the isopycnal within a bound. i = 0 or j = 0 in trajectory_path_independent is the closed path. How far wetting extends is C136/C137.")
c("C150","partial",ns("Omega","pass_reduces_false pass_reduces_partial omega_optimal")+ns("OmegaMat","next_cost small_correction_optimal"),"Violated with strong thermobaricity: pass_reduces_false has two casts on which one pass more than doubles the error although a neutral point exists. Proved where thermobaricity is weak (the hypotheses of C148): pass_reduces_partial bounds the errors after a pass by those of the best first order correction plus a remainder; omega_optimal: the returned surface is optimal to first order.")
c("C151","partial",ns("Bfs","perim_nan_structure_false perim_rounded_partial perim_sound_rounded perim_lost_three mean_bounds mean_few mean_four")+ns("Rounding53","rnd_four")+ns("Omega","omega_collapse_false"),"Violated: in double precision the computed mean of three times 100.4 is larger than 100.4, so a cast with three links to its last bottle gets a pressure but NaN salinity and temperature (perim_nan_structure_false), and the next pass of omega_surf loses the surface everywhere but at the pin (omega_collapse_false). Proved: the computed mean leaves the data by rounding errors at most, never with one or two links, nor with four (perim_rounded_partial, mean_four), so grids with up to two neighbours per cast are safe (perim_sound_rounded) and on grids with four neighbours the first loss needs exactly three links (perim_lost_three).")
c("C152","partial",ns("Label","veronis_order_false veronis_order_partial veronis_accuracy"),"Violated for every step size: veronis_order_false has a stably stratified cast on which the label at 19/20 dp is larger than that at dp, because the number of trapezoidal steps to the next bottle changes there. Proved: labels are accurate to second order in dp (veronis_accuracy), ordered for any dp if the deeper position is a bottle, and ordered between positions so far apart that the increase of density exceeds the error (veronis_order_partial).")
c("C153","proved",ns("Bfs","wetPerim_local")+ns("OmegaMat","poisson_confined gradient_confined")+ns("Omega","step_local omega_local omegaSurf_local"),"Any arithmetic with NanLaws (proved for exact and for rounded arithmetic); the number of casts may even differ. For an array p_init the interpolation of the second ocean must not raise.")
c("C154","proved",ns("Omega","wetting_rounded step_rounded init_rounded omega_float omega_float_on omegaSurf_float lost_three"),"Rounded arithmetic without overflow. Lost bottles (C151) are part of the statement; without passes that wet casts or with at most two links at each cast there are none (omega_float_on); in double precision with at most four links they are within four rounding errors of the data (lost_three). lsqr must return finite numbers for the gradient formulation.")
c("C155","partial",ns("Omega","omegaSurf_errors_partial omegaSurf_casts_errors_partial omegaSurf_pml_shape_false pml_transposed_false")+ns("Lib","processCasts_errors")+ns("Isopycnal","isoSurf_errors_partial"),"False for p_ml: an array of another shape (transposed, say) is accepted and read in C order, so casts get the mixed layer of other casts (omegaSurf_pml_shape_false). Also a number vert_dim beyond the dimensions is taken modulo (C70). Links to casts that do not exist are an out of range access in compiled code, not an exception. All other faults: exact characterisation of each exception.")
c("C156","proved",ns("Omega","omegaSurf_padding")+ns("Isopycnal","isoSurf_padding")+ns("Traj","trajectory_padding ntp_padding")+ns("Same","NanPad.same"),"Equality to the last bit, in any arithmetic with NaN + x = NaN (exact and rounded instances given). For omega_surf in both directions: a run on the padded arrays returns the same arrays as one on the unpadded ones.")
c("C157","proved",ns("Same","ntp_refine trajectory_refine pchip_refine_false")+ns("Omega","omegaSurf_refine")+ns("Isopycnal","isoSurf_refine"),"Exact arithmetic and linear interpolation; pchip_refine_false shows that PCHIP changes, both for bottles on the straight line and for bottles on the PCHIP curve.")
c("C158","partial",ns("Fzero","solveRoot_exact")+ns("Traj","ntp_flat trajectory_flat_partial ntp_flat_near trajectory_flat_false")+ns("OmegaMat","poisson_level gradient_level")+ns("Omega","wetting_level init_level omega_flat_partial omega_flat_stops omegaSurf_flat_partial"),"Holds exactly for density (an equation of state that increases downwards); trajectory_flat_false: with specific volume a trajectory over identical casts drifts at every cast, ntp_flat_near bounds one step. For omega_surf the linear solvers are assumed to return zero for a zero right-hand side, and the mean of copies of the pressure must be exact (true for one, two and four links; three can be off by a rounding error, see C151).")
c("C159","proved",ns("VertSolve","ntp_density_volume potential_density_volume"),"Both problems are within their accuracy of the same exact solution (C125); the gradient of the specific volume difference is at least that of density over the square of the largest density. Not stated for whole omega surfaces, where the correction is also in other units.")
c("C160","proved",ns("Omega","omegaSurf_positive rect_omega tri_omega xgcm_omega lengths_omega graph_omega")+ns("Grid","neighbours_range"),"Composition of the builders with the totality of the iteration (C139) over exact arithmetic; dictionary of matrices: both symmetric. With xgcm the neighbours beyond the tiles are taken from the library.")
c("C161","partial",ns("VertSolve","ntp_order_partial trajectory_order_partial trajectory_order_false"),"Violated where the thermobaric effect exceeds the stratification: trajectory_order_false has two stably stratified casts on which the deeper start gives the shallower neutral point. Proved where the midpoint density difference increases downwards along either cast (slopes between m and L): order is kept up to solver errors, and strictly as long as the starting points are far enough apart.")
c("C162","partial",ns("Omega","omegaSurf_order_partial omegaSurf_order_pin_partial omega_order_false"),"Proved for an equation of state without thermobaricity, whatever grids and initial surfaces the two runs use. Violated with strong thermobaricity: in omega_order_false the surface pinned 6 deeper at one cast is shallower at the other, in double precision and with an exact linear solver.")
c("C163","proved",ns("VertSolve","close_linear close_pchip jmd95_close jmdfwg06_close potential_perturbed anomaly_perturbed ntp_perturbed trajectory_perturbed")+ns("Omega","omegaSurf_perturbed"),"Exact arithmetic. The statement on whole omega surfaces is for densities without thermobaricity (the only ones for which an omega surface is determined by the pinning point); surfaces and trajectories of single casts are for any density.")
c("C164","proved",ns("Interp","fbSlope_lip threePoint_lip slopeSpec_lip pchip_near"),"Exact arithmetic.")
c("C165","proved",ns("Traj","link_start trajectory_resume trajectory_glue"),"In every arithmetic in which NaN is not finite and finite numbers are not NaN.")
c("C166","proved",ns("Omega","triGrid_links tri_symmetric omegaSurf_tripolar"),"Exact arithmetic, exact solvers, well-behaved casts (Call), wetting off. triGrid_links: the builder returns the links of the specification. TriSym.mirror and TriSym.half: both renumberings meet the hypotheses.")
c("C167","proved",ns("Stability","stabilize_run stabilize_retry stabilize_again"),"Any arithmetic with the two laws named. The minimiser is a parameter; the one of the first call must report success only where no constraint is negative (demoMini is an example).")
c("C168","proved",ns("EosTools","bsq_first bsq_firstTwo ntp_bsq trajectory_bsq isopycnal_bsq mixedLayer_bsq veronis_bsq omega_bsq_poisson omega_bsq_gradient"),"Exact arithmetic, NaN in place of ZeroDivisionError of the equation of state; the external sparse solver is homogeneous in the right-hand side (such exact solvers exist). mixed_layer for equations of state that give density.")
c("C169","proved",ns("SurfThread","inputs_unchanged calls_isolated outputs_new")+ns("Threads","isolation"),"Statement granularity: one numpy or numba statement on arrays is one step; the compiled-function caches shared by threads are C109; flattening and xarray wrapping before and after are modelled without aliases (Model/Flatten, Model/Xarray): they write into no array.")
c("C170","partial",ns("GraphFcn","graphBinaryFcn_partial graphBinaryFcn_negative_false graphBinaryFcn_int_false"),"Violated: a negative node number takes the value of a node counted from the end instead of giving NaN, for all values and functions; integer node values make the result an array of integers, so that function values are truncated. Proved for node numbers in range with float values, or integer values and an integer-valued function.")
c("C171","proved",ns("MixedLayer","mixed_layer_rounded eos_dens"),"Rounded arithmetic has unbounded exponent. `eos_dens` discharges the hypotheses on the equation of state for jmd95, jmdfwg06 and gsw; an example in IEEE rounding shows a cast that meets the rest.")
c("C172","proved",ns("Traj","trajectory_tracks"),"")
c("C173","proved",ns("Label","veronis_rounded"),"Over Rfl rnd with BinRound rnd (IEEE binary64 without overflow and underflow: Rounding53.rndNear_bin); the equation of state enters by STBox and EosBox (computed values close to Lipschitz functions on a box). Model simplification: np.linspace multiplies and divides in a different order.")
c("C174","partial",ns("Label","veronis_bad_step_partial veronis_negative_step_accepted"),"Violated: a negative step larger in size than every bottle spacing is accepted, one point per interval is used, and every position gets the potential density at the base. Proved: zero always raises; a negative step raises if between base and position some bottle is at least twice the step away. Not decided: negative steps between these (empty arrays in numba).")
c("C175","partial",ns("MixedLayer","mixedLayer_pad")+ns("Stability","countPairs_pad castStep_pad countInterp_pad_partial countInterp_pad_false")+ns("Label","veronis_pad")+ns("Same","nanLaws_fl nanLaws_rfl"),"Violated by count_unstable with an interpolant: it tests the deepest bottle only if there is a level below it (countInterp_pad_false; exactly this difference, countInterp_pad_partial). Proved for the others.")
c("C176","proved",ns("Interp","linear_local pchip_local local_sharp"),"Any rounding of the arithmetic (ColR). local_sharp shows on both sides that the reach cannot be smaller.")
c("C177","proved",ns("Interp","linear_window pchip_window")+ns("VertSolve","potential_window anomaly_window ntp_window omega_window window_unstable"),"Interpolants: any rounding, to the last bit. Surfaces and links: exact arithmetic with the accuracy of the solver; window_unstable shows that stratification is needed.")
c("C178","proved",ns("Label","veronis_window veronis_window_top veronis_window_sharp"),"exact arithmetic; casts whose data are finite from the top bottle down to a bottle; bottles may have different indices in the two casts; sharpness by witnesses")
c("C179","proved",ns("MixedLayer","mixed_layer_pchip mixed_layer_pchip_mono mixed_layer_window"),"exact real arithmetic; linear interpolation: C61")
c("C180","proved",ns("Label","veronis_refine veronis_refine_limit veronis_refine_differs"),"Linear interpolation in exact arithmetic; the last theorem is a witness that the labels do differ at a finite step size.")
c("C181","proved",ns("VertSolve","trajectory_window"),"Exact arithmetic. The first section is sloped in the sense of C132 in both directions; the second only needs to be stratified.")
c("C182","partial",ns("Deriv","pvalZ_nat pvalZ_neg interp_order_partial ppval_order negative_order_accepted"),"Violated for precomputed coefficients (out-of-bounds read) and outside the data (NaN, no exception); proved for on-the-fly interpolation within the data.")
c("C183","proved",ns("Isopycnal","solve_separable isopycnal_separable isoSurf_separable"),"Exact arithmetic. The function whose root is sought is the same for all kinds and references (resid); casts are land or have finite data (Fine).")
c("C184","proved",ns("Same","line_interp SameLines.same ntp_straight trajectory_straight")+ns("Omega","omegaSurf_straight")+ns("Isopycnal","isoSurf_straight"),"for the exact instance")
c("C185","proved",ns("Isopycnal","isopycnal_repin isoSurf_repin"),"exact real arithmetic with the accuracy of the solver")
c("C186","proved",ns("Isopycnal","isopycnal_tile isopycnal_tile_pin isoSurf_tile isoSurf_tile_pin"),"Any FloatLike arithmetic, so also bitwise in floating point.")
c("C187","proved",ns("Isopycnal","isopycnal_pins"),"Exact arithmetic; the accuracy of the root finder is included (2(2 eps |p| + tol)).")
c("C188","proved",ns("Grid","one_tile")+ns("Omega","one_tile_links omegaSurf_one_tile"),"exact arithmetic for omega_surf; grid statement for any number type; what xgcm pads with is given by edgeX and edgeY")
c("C189","proved",ns("Omega","graph_round omegaSurf_graph_round rect_simple_links")+ns("Graph","graph_round_repeated"),"exact arithmetic; matrices as dense arrays (the restriction of issymmetric to dense arrays is not modelled); graph_round_repeated is the contrast for repeated edges")
c("C190","proved",ns("Grid","tiled")+ns("Omega","tiled_links omegaSurf_tiled"),"exact arithmetic for omega_surf; grid statement for any number type; what xgcm pads with at tile edges is given by blockX and blockY (tiles meeting without rotation)")
c("C191","proved",ns("Bfs","wetPerim_land")+ns("Omega","step_land omega_land omegaSurf_land_links omegaSurf_land_periodic few_of_nan land_inside_matters"),"Equality of results and exceptions in any arithmetic with NanLaws (proved for exact and rounded arithmetic). The neutrality error norms among the diagnostics are a parameter of the model and are not compared. Land in the middle instead of at the end does not suffice (land_inside_matters).")
c("C192","proved",ns("Omega","omegaSurf_land_rows omegaSurf_rect_rows rectE_rows omegaSurf_rows"),"omegaSurf_land_rows is the property for any grid; omegaSurf_rect_rows the case of rectilinear grids. An initial array must be one to which interpolation raises no exception at the casts of the smaller ocean.")
c("C193","proved",ns("Omega","omegaSurf_behind_land omegaSurf_land_data"),"Unlike C153 the set may be linked with the rest, if only across land. An initial array must be one to which interpolation raises no exception in the second ocean.")
c("C194","proved",ns("Omega","omegaSurf_crop omegaSurf_rect_crop rectE_crop rectE_coast"),"omegaSurf_crop is the property for any grid; omegaSurf_rect_crop the case of rectilinear grids. An initial array must be one to which interpolation raises no exception on the whole ocean.")
c("C195","proved",ns("Omega","omega_emb omegaSurf_land_margin omegaSurf_rect_margin omega_back omegaSurf_land_trim omegaSurf_rect_trim"),"Both directions: margins may be added and cut off. The casts must be found in the same order (with margins on a rectilinear grid they are). Links within land do not matter.")
c("C196","proved",ns("Omega","omegaSurf_rect_window"),"both directions; the coast is a condition on pairs of neighbouring casts, so the border may run along land on either side")
#INSERT
c("C63", "proved", "Fzero.brentLoop_sign_change_any_arithmetic", "any arithmetic")
claims.sort(key=lambda q: q['property'])
open('/verif/MANIFEST.json', 'w').write(json.dumps({"claims": claims}, indent=1, ensure_ascii=False) + "\n")
