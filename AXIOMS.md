# Axioms of the theorems in MANIFEST.json

Printed by `#print axioms` (see `tools/axioms.py`).

## none (4 theorems)

* `Cache.recomputed_example`
* `Graph.toGraph_symm`
* `Grid.rect_simple_small`
* `Traj.linked_unique`

## `propext` (11 theorems)

* `Bfs.bfsWet_dry_root`
* `Graph.binaryFcn_spec`
* `Grid.neighbours_reject`
* `Grid.xgcm_edges`
* `Grid.xgcm_scalar_false`
* `Lib.processVertDim_out_of_range`
* `Lib.processWrap_two`
* `Omega.pml_transposed_false`
* `Xarray.surf_attrs_partial`
* `Xarray.surf_fits`
* `Xarray.surf_np_partial`

## `Quot.sound`, `propext` (42 theorems)

* `Bfs.wet_calls`
* `Cache.calls_error`
* `Cache.calls_spec`
* `Cache.conc_spec`
* `Cache.makeVertsolve_history`
* `Cache.not_recomputed`
* `Deriv.pvalZ_neg`
* `GraphFcn.graphBinaryFcn_partial`
* `Grid.broadcastTo_spec`
* `Grid.tri_fold_twice`
* `Grid.tri_mem`
* `Grid.tri_padded_false`
* `Grid.xgcm_swapped_witness`
* `Gufunc.ppvalTwoU_rejects`
* `Interp.IsFirstBlock.unique`
* `Interp.ppinterp1Two_eq`
* `Interp.ppval1NonanTwo_eq`
* `Interp.ppval1Nonan_trim`
* `Interp.ppval1Two_eq`
* `Interp.ppval1Two_fst`
* `Interp.ppval1_few`
* `Interp.pval_high`
* `Lib.aggsum_spec`
* `Lib.contiguousCasts_spec`
* `Lib.processCasts_errors`
* `Lib.processPinCast_order_false`
* `Lib.processVertDim_spec`
* `Lib.processWrap_spec`
* `Lib.valAt_1d`
* `Lib.valAt_length_one_false`
* `Lib.valAt_pure_false`
* `Lib.valAt_spec_partial`
* `OmegaMat.balanced_relabel`
* `Same.nanLaws_fl`
* `Same.nanLaws_rfl`
* `Stability.cast_frame`
* `Stability.cast_short_unchanged`
* `Stability.cast_stable_unchanged`
* `Stability.stabilize_lost_dtype`
* `Threads.isolation`
* `Xarray.surf_attrs_false`
* `Xarray.surf_int_false`

## `Classical.choice`, `Quot.sound`, `propext` (635 theorems)

* `Bfs.PerimSpec.mean`
* `Bfs.PerimSpec.two_data`
* `Bfs.bfsWet_neutral`
* `Bfs.bfsWet_spec`
* `Bfs.bfsWet_two_data`
* `Bfs.bfs_component`
* `Bfs.bfs_order`
* `Bfs.mean_bounds`
* `Bfs.mean_few`
* `Bfs.mean_four`
* `Bfs.ntpP_eq`
* `Bfs.ofCasts_data`
* `Bfs.perim_exhaustive_false`
* `Bfs.perim_exhaustive_partial`
* `Bfs.perim_garbage`
* `Bfs.perim_lost_three`
* `Bfs.perim_mixed_layer_false`
* `Bfs.perim_mixed_layer_partial`
* `Bfs.perim_nan_structure_false`
* `Bfs.perim_neutral`
* `Bfs.perim_order_false`
* `Bfs.perim_order_partial`
* `Bfs.perim_queue`
* `Bfs.perim_rounded_partial`
* `Bfs.perim_sound_rounded`
* `Bfs.wetPerim_count`
* `Bfs.wetPerim_land`
* `Bfs.wetPerim_local`
* `Bfs.wetPerim_spec`
* `Bfs.wet_one_ntp_per_cast_false`
* `Bfs.wet_work`
* `Deriv.interp_order_partial`
* `Deriv.negative_order_accepted`
* `Deriv.ppval_order`
* `Deriv.pvalZ_nat`
* `EosTools.bsq_deriv_order`
* `EosTools.bsq_deriv_p`
* `EosTools.bsq_deriv_st`
* `EosTools.bsq_first`
* `EosTools.bsq_firstTwo`
* `EosTools.bsq_not_idempotent_false`
* `EosTools.isopycnal_bsq`
* `EosTools.make_eos_accepts`
* `EosTools.make_eos_derivatives`
* `EosTools.mixedLayer_bsq`
* `EosTools.ntp_bsq`
* `EosTools.omega_bsq_gradient`
* `EosTools.omega_bsq_poisson`
* `EosTools.process_fn`
* `EosTools.process_refuses`
* `EosTools.process_str`
* `EosTools.trajectory_bsq`
* `EosTools.veronis_bsq`
* `Fzero.brentGuess_finds_root`
* `Fzero.brentGuess_rounded`
* `Fzero.brentGuess_rounded_near_root`
* `Fzero.brentGuess_spec`
* `Fzero.brentLoop_sign_change_any_arithmetic`
* `Fzero.brent_nan_bounds`
* `Fzero.brent_nan_iff`
* `Fzero.brent_no_exception`
* `Fzero.brent_root_nearby`
* `Fzero.brent_rounded`
* `Fzero.brent_rounded_no_exception`
* `Fzero.brent_same_sign_false`
* `Fzero.brent_sign_change`
* `Fzero.brent_terminates`
* `Fzero.guessToBounds_brent_finite`
* `Fzero.guessToBounds_finds`
* `Fzero.guessToBounds_rounded`
* `Fzero.guessToBounds_spec`
* `Fzero.solveRoot_exact`
* `Graph.buildGridDict_false`
* `Graph.buildGridDict_spec_partial`
* `Graph.buildGridMat_direction`
* `Graph.buildGridMat_spec`
* `Graph.edgesToCsr_mem`
* `Graph.edgesToCsr_spec`
* `Graph.edgesToCsr_symm`
* `Graph.graph_round_repeated`
* `Graph.numNodes_spec`
* `Graph.toGraph_support`
* `Graph.toGraph_weight`
* `Graph.toGraph_weight_false`
* `GraphFcn.graphBinaryFcn_int_false`
* `GraphFcn.graphBinaryFcn_negative_false`
* `Grid.build_left_partial`
* `Grid.build_shift`
* `Grid.neighbours_left_partial`
* `Grid.neighbours_order_false`
* `Grid.neighbours_order_partial`
* `Grid.neighbours_range`
* `Grid.neighbours_right`
* `Grid.neighbours_right_false`
* `Grid.one_tile`
* `Grid.rect_aligned`
* `Grid.rect_count`
* `Grid.rect_mem`
* `Grid.rect_roundtrip`
* `Grid.rect_simple`
* `Grid.tiled`
* `Grid.tri_aligned`
* `Grid.tri_roundtrip`
* `Grid.tri_unpadded_partial`
* `Grid.xgcm_isotropic_partial`
* `Grid.xgcm_roundtrip`
* `Grid.xgcm_swapped_false`
* `Gsw.epsErr_close`
* `Gsw.gsw_derivatives`
* `Gsw.gsw_finite`
* `Gsw.gsw_mono_p`
* `Gsw.gsw_mono_s`
* `Gsw.gsw_nan`
* `Gsw.gsw_negative`
* `Gsw.gsw_negative_derivative_false`
* `Gsw.gsw_ocean`
* `Gsw.gsw_rounded`
* `Gsw.gsw_sensitivity`
* `Gsw.gsw_signs`
* `Gsw.gsw_solves`
* `Gswc.gswc_derivatives`
* `Gufunc.Broadcast.unique`
* `Gufunc.bshapes_spec`
* `Gufunc.coeffsU_ok`
* `Gufunc.coeffsU_refuses`
* `Gufunc.coeffsU_returns`
* `Gufunc.coeffs_singleton_false`
* `Gufunc.interpU_refuses`
* `Gufunc.interpU_returns`
* `Gufunc.linear_interp_spec`
* `Gufunc.linear_interp_two_spec`
* `Gufunc.linear_table`
* `Gufunc.pchip_interp_spec`
* `Gufunc.pchip_interp_two_spec`
* `Gufunc.pchip_table`
* `Gufunc.ppvalTwoU_returns`
* `Gufunc.ppvalU_returns`
* `Gufunc.vectorizeEos_returns`
* `Gufunc.vectorizeEos_spec`
* `Interp.fbSlope_lip`
* `Interp.line_reproduced`
* `Interp.linear_between`
* `Interp.linear_chord`
* `Interp.linear_interpolates`
* `Interp.linear_local`
* `Interp.linear_onthefly_eq_table`
* `Interp.linear_padding`
* `Interp.linear_rounded`
* `Interp.linear_rounded_first_partial`
* `Interp.linear_rounded_site_partial`
* `Interp.linear_site_inexact`
* `Interp.linear_window`
* `Interp.local_sharp`
* `Interp.pchipNonan_eq`
* `Interp.pchip_C1`
* `Interp.pchip_interpolates`
* `Interp.pchip_local`
* `Interp.pchip_near`
* `Interp.pchip_onthefly_eq_table`
* `Interp.pchip_padding`
* `Interp.pchip_rounded`
* `Interp.pchip_rounded_onthefly`
* `Interp.pchip_shape`
* `Interp.pchip_site_inexact`
* `Interp.pchip_slopes`
* `Interp.pchip_window`
* `Interp.pieceIndex_range`
* `Interp.ppval1_spec`
* `Interp.pval_derivative`
* `Interp.slopeSpec_lip`
* `Interp.threePoint_lip`
* `Interp.threePoint_parabola`
* `Interp.units_change`
* `Interp.validRange2_spec`
* `Interp.validRange_alone_partial`
* `Interp.validRange_doc_false`
* `Interp.validRange_spec`
* `Isopycnal.check_errors`
* `Isopycnal.check_iff`
* `Isopycnal.check_isoval_without_ref_false`
* `Isopycnal.check_pin_p_without_cast_false`
* `Isopycnal.determined_partial`
* `Isopycnal.isoSurf_errors_partial`
* `Isopycnal.isoSurf_length`
* `Isopycnal.isoSurf_list_false`
* `Isopycnal.isoSurf_list_typing`
* `Isopycnal.isoSurf_padding`
* `Isopycnal.isoSurf_refine`
* `Isopycnal.isoSurf_repin`
* `Isopycnal.isoSurf_separable`
* `Isopycnal.isoSurf_spec`
* `Isopycnal.isoSurf_straight`
* `Isopycnal.isoSurf_tile`
* `Isopycnal.isoSurf_tile_pin`
* `Isopycnal.isoSurf_tuple_partial`
* `Isopycnal.isopycnal_on_isovalue`
* `Isopycnal.isopycnal_pinned`
* `Isopycnal.isopycnal_pins`
* `Isopycnal.isopycnal_pointwise`
* `Isopycnal.isopycnal_repin`
* `Isopycnal.isopycnal_separable`
* `Isopycnal.isopycnal_tile`
* `Isopycnal.isopycnal_tile_pin`
* `Isopycnal.pinST_spec`
* `Isopycnal.pin_unused_false`
* `Isopycnal.pin_unused_partial`
* `Isopycnal.solve_separable`
* `Jmd95.count_unstable`
* `Jmd95.epsErr_close`
* `Jmd95.epsErr_sign`
* `Jmd95.jmd95_mono_p`
* `Jmd95.jmd95_mono_s`
* `Jmd95.jmd95_nan`
* `Jmd95.jmd95_ocean`
* `Jmd95.jmd95_rounded`
* `Jmd95.jmd95_sensitivity`
* `Jmd95.jmd95_signs`
* `Jmd95.jmd95_solves`
* `Jmd95.rhoP_derivative`
* `Jmd95.rhoST_derivatives`
* `Jmd95.rho_eq`
* `Jmdfwg06.count_unstable`
* `Jmdfwg06.epsErr_close`
* `Jmdfwg06.jmdfwg06_mono_p`
* `Jmdfwg06.jmdfwg06_mono_s`
* `Jmdfwg06.jmdfwg06_nan`
* `Jmdfwg06.jmdfwg06_ocean`
* `Jmdfwg06.jmdfwg06_rounded`
* `Jmdfwg06.jmdfwg06_sensitivity`
* `Jmdfwg06.jmdfwg06_signs`
* `Jmdfwg06.jmdfwg06_solves`
* `Jmdfwg06.rhoP_derivative`
* `Jmdfwg06.rhoST_derivatives`
* `Jmdfwg06.rho_eq`
* `Label.good_linear`
* `Label.good_pchip`
* `Label.trap_tendsto`
* `Label.veronis_accuracy`
* `Label.veronis_bad_step_partial`
* `Label.veronis_base`
* `Label.veronis_below_bottom`
* `Label.veronis_converges`
* `Label.veronis_integral`
* `Label.veronis_linear_eos`
* `Label.veronis_nan_padded_false`
* `Label.veronis_negative_step_accepted`
* `Label.veronis_order_false`
* `Label.veronis_order_partial`
* `Label.veronis_outside`
* `Label.veronis_pad`
* `Label.veronis_pressure_independent`
* `Label.veronis_refine`
* `Label.veronis_refine_differs`
* `Label.veronis_refine_limit`
* `Label.veronis_rounded`
* `Label.veronis_window`
* `Label.veronis_window_sharp`
* `Label.veronis_window_top`
* `Lib.aggsum_exact`
* `Lib.divergence_spec`
* `Lib.divergence_sum`
* `Lib.findFirstNan_spec`
* `Lib.processCasts_spec`
* `Lib.processPinCast_nearest_false`
* `Lib.processPinCast_partial`
* `Lib.takeFill_spec`
* `Lib.valAt_int`
* `MakePP.callers_accepted`
* `MakePP.make_pp_injective`
* `MakePP.make_pp_resolves`
* `MakePP.optional_order_false`
* `MakePP.optional_order_partial`
* `MixedLayer.bottle_minus_one`
* `MixedLayer.bottle_some_iff`
* `MixedLayer.dens_get`
* `MixedLayer.eos_dens`
* `MixedLayer.mixedLayer_pad`
* `MixedLayer.mixed_layer_inversion_false`
* `MixedLayer.mixed_layer_mono`
* `MixedLayer.mixed_layer_pchip`
* `MixedLayer.mixed_layer_pchip_mono`
* `MixedLayer.mixed_layer_rounded`
* `MixedLayer.mixed_layer_spec`
* `MixedLayer.mixed_layer_window`
* `Ntp.epsErr_nan`
* `Ntp.epsErr_reverse`
* `Ntp.epsErr_reverse_rounded`
* `Ntp.epsErr_rounded`
* `Ntp.epsErr_value`
* `Ntp.epsErr_zero`
* `Ntp.epsErr_zero_rounded`
* `Ntp.epsilonErrors_default_partial`
* `Ntp.epsilonErrors_local`
* `Ntp.normsOf_drop_nan`
* `Ntp.normsOf_order`
* `Ntp.normsOf_perm`
* `Ntp.normsOf_reverse`
* `Ntp.normsOf_value`
* `Ntp.norms_default_false`
* `Ntp.norms_eq`
* `Ntp.norms_perm`
* `Ntp.norms_returns`
* `Ntp.norms_reverse`
* `Ntp.norms_value`
* `Omega.DiagSpec.order`
* `Omega.IsoWithin.agrees`
* `Omega.IsoWithin.potential_anomaly`
* `Omega.demo_index`
* `Omega.demo_ok`
* `Omega.demo_run`
* `Omega.demo_solver`
* `Omega.demo_unbound`
* `Omega.err_finite`
* `Omega.few_of_nan`
* `Omega.gradient_pinSolver`
* `Omega.gradient_total`
* `Omega.graph_omega`
* `Omega.graph_round`
* `Omega.init_isopycnal`
* `Omega.init_level`
* `Omega.init_rounded`
* `Omega.interp_total`
* `Omega.land_inside_matters`
* `Omega.lengths_omega`
* `Omega.loop_relabel`
* `Omega.loop_total`
* `Omega.lost_three`
* `Omega.moved`
* `Omega.nanmax_holds`
* `Omega.nanmean_holds`
* `Omega.omegaSurf_behind_land`
* `Omega.omegaSurf_casts_errors_partial`
* `Omega.omegaSurf_crop`
* `Omega.omegaSurf_dict_false`
* `Omega.omegaSurf_dict_partial`
* `Omega.omegaSurf_dict_vert_false`
* `Omega.omegaSurf_errors_partial`
* `Omega.omegaSurf_flat_partial`
* `Omega.omegaSurf_float`
* `Omega.omegaSurf_floatinit_partial`
* `Omega.omegaSurf_graph_round`
* `Omega.omegaSurf_int_false`
* `Omega.omegaSurf_int_partial`
* `Omega.omegaSurf_intinit_false`
* `Omega.omegaSurf_isopycnal`
* `Omega.omegaSurf_iterations`
* `Omega.omegaSurf_land_data`
* `Omega.omegaSurf_land_links`
* `Omega.omegaSurf_land_margin`
* `Omega.omegaSurf_land_periodic`
* `Omega.omegaSurf_land_rows`
* `Omega.omegaSurf_land_trim`
* `Omega.omegaSurf_local`
* `Omega.omegaSurf_ml_partial`
* `Omega.omegaSurf_negative`
* `Omega.omegaSurf_nodist_false`
* `Omega.omegaSurf_noml`
* `Omega.omegaSurf_one_tile`
* `Omega.omegaSurf_order_partial`
* `Omega.omegaSurf_order_pin_partial`
* `Omega.omegaSurf_padding`
* `Omega.omegaSurf_perturbed`
* `Omega.omegaSurf_pinned`
* `Omega.omegaSurf_pml_shape_false`
* `Omega.omegaSurf_positive`
* `Omega.omegaSurf_rect_crop`
* `Omega.omegaSurf_rect_margin`
* `Omega.omegaSurf_rect_rows`
* `Omega.omegaSurf_rect_trim`
* `Omega.omegaSurf_rect_window`
* `Omega.omegaSurf_refine`
* `Omega.omegaSurf_relabel`
* `Omega.omegaSurf_rows`
* `Omega.omegaSurf_spec`
* `Omega.omegaSurf_straight`
* `Omega.omegaSurf_symmetric`
* `Omega.omegaSurf_tiled`
* `Omega.omegaSurf_total`
* `Omega.omegaSurf_transposed`
* `Omega.omegaSurf_tripolar`
* `Omega.omega_all_passes`
* `Omega.omega_back`
* `Omega.omega_collapse_false`
* `Omega.omega_connected`
* `Omega.omega_converges`
* `Omega.omega_diags_false`
* `Omega.omega_diags_partial`
* `Omega.omega_diags_values`
* `Omega.omega_emb`
* `Omega.omega_flat_partial`
* `Omega.omega_flat_stops`
* `Omega.omega_float`
* `Omega.omega_float_on`
* `Omega.omega_from`
* `Omega.omega_isopycnal`
* `Omega.omega_iterations`
* `Omega.omega_land`
* `Omega.omega_local`
* `Omega.omega_ml_false`
* `Omega.omega_ml_partial`
* `Omega.omega_no_tolerance`
* `Omega.omega_no_wetting`
* `Omega.omega_optimal`
* `Omega.omega_order_false`
* `Omega.omega_pinned`
* `Omega.omega_region_empty_false`
* `Omega.omega_region_nonempty_partial`
* `Omega.omega_relabel`
* `Omega.omega_restart`
* `Omega.omega_total`
* `Omega.omega_total_scalar`
* `Omega.omega_wetting_window`
* `Omega.omega_zero_false`
* `Omega.omega_zero_partial`
* `Omega.one_tile_links`
* `Omega.pass_calm`
* `Omega.pass_diags`
* `Omega.pass_isopycnal`
* `Omega.pass_reduces_false`
* `Omega.pass_reduces_partial`
* `Omega.pass_section`
* `Omega.passes_converge`
* `Omega.poisson_pinSolver`
* `Omega.poisson_total`
* `Omega.quadratic_noThermobaricity`
* `Omega.rectE_coast`
* `Omega.rectE_crop`
* `Omega.rectE_rows`
* `Omega.rectGrid_links`
* `Omega.rect_omega`
* `Omega.rect_simple_links`
* `Omega.rect_symmetric`
* `Omega.rect_transposed`
* `Omega.region_connected`
* `Omega.region_posed`
* `Omega.region_total`
* `Omega.restart_mixed_layer`
* `Omega.run_spec`
* `Omega.seos_thermobaric`
* `Omega.step_land`
* `Omega.step_local`
* `Omega.step_neutral`
* `Omega.step_pinned`
* `Omega.step_region`
* `Omega.step_relabel`
* `Omega.step_rounded`
* `Omega.step_total`
* `Omega.tiled_links`
* `Omega.tol_density`
* `Omega.tol_units_false`
* `Omega.tol_units_partial`
* `Omega.triGrid_links`
* `Omega.tri_omega`
* `Omega.tri_symmetric`
* `Omega.wetted_isopycnal`
* `Omega.wetting_level`
* `Omega.wetting_rounded`
* `Omega.wetting_total`
* `Omega.xgcm_omega`
* `OmegaMat.Region.relabel`
* `OmegaMat.Solver.within`
* `OmegaMat.balanced_unique`
* `OmegaMat.correction_accuracy`
* `OmegaMat.correction_sensitivity`
* `OmegaMat.cost_accuracy`
* `OmegaMat.demo_region`
* `OmegaMat.eliminates_iff`
* `OmegaMat.empty_region`
* `OmegaMat.exact_solvers_exist`
* `OmegaMat.gradient_accuracy`
* `OmegaMat.gradient_confined`
* `OmegaMat.gradient_eq_poisson`
* `OmegaMat.gradient_level`
* `OmegaMat.gradient_solver`
* `OmegaMat.gradient_within`
* `OmegaMat.next_cost`
* `OmegaMat.poisson_accuracy`
* `OmegaMat.poisson_confined`
* `OmegaMat.poisson_level`
* `OmegaMat.poisson_minimises`
* `OmegaMat.poisson_neutral`
* `OmegaMat.poisson_reduces`
* `OmegaMat.poisson_single`
* `OmegaMat.poisson_solver`
* `OmegaMat.poisson_spec`
* `OmegaMat.poisson_within`
* `OmegaMat.route_exists`
* `OmegaMat.section_eliminates`
* `OmegaMat.small_correction_optimal`
* `OmegaMat.solver_relabel`
* `OmegaMat.weights_do_not_matter`
* `Rounding53.rnd53_std`
* `Rounding53.rnd64_nearest`
* `Rounding53.rndNear_nearest`
* `Rounding53.rnd_four`
* `Same.NanPad.same`
* `Same.SameLines.same`
* `Same.line_interp`
* `Same.ntp_refine`
* `Same.ntp_straight`
* `Same.pchip_refine_false`
* `Same.trajectory_refine`
* `Same.trajectory_straight`
* `Stability.castStep_pad`
* `Stability.cast_stabilised`
* `Stability.countInterp_pad_false`
* `Stability.countInterp_pad_partial`
* `Stability.countPairs_pad`
* `Stability.count_interp_arrays`
* `Stability.count_interp_false`
* `Stability.count_interp_ignores_deepest`
* `Stability.count_interp_spec`
* `Stability.count_pairs_arrays`
* `Stability.count_rounded`
* `Stability.count_zero_after`
* `Stability.count_zero_after_rounded`
* `Stability.count_zero_iff`
* `Stability.grad_rounded`
* `Stability.jac_is_gradient`
* `Stability.loop_spec`
* `Stability.objective_zero_iff`
* `Stability.stabilize_again`
* `Stability.stabilize_in_place_partial`
* `Stability.stabilize_lost`
* `Stability.stabilize_retry`
* `Stability.stabilize_run`
* `Stability.unstable_rounded`
* `SurfThread.calls_isolated`
* `SurfThread.inputs_unchanged`
* `SurfThread.outputs_new`
* `Synthocean.areas`
* `Synthocean.distances`
* `Synthocean.latitudes`
* `Synthocean.longitudes`
* `Synthocean.pressure_levels`
* `Synthocean.pressure_single_false`
* `Synthocean.salinity_anomaly`
* `Synthocean.salinity_nan_iff`
* `Synthocean.temperature_range`
* `Synthocean.temperature_single_false`
* `Synthocean.total_area`
* `Synthocean.zonally_uniform`
* `Traj.Accurate.stable`
* `Traj.guessToBounds_nan_guess_hangs`
* `Traj.link_start`
* `Traj.ntp_accurate`
* `Traj.ntp_few`
* `Traj.ntp_finds`
* `Traj.ntp_flat`
* `Traj.ntp_flat_near`
* `Traj.ntp_nan_pressure_hangs`
* `Traj.ntp_nan_together`
* `Traj.ntp_padding`
* `Traj.ntp_rounded`
* `Traj.ntp_spec`
* `Traj.ntp_tol_doc_false`
* `Traj.trajectory_flat_false`
* `Traj.trajectory_flat_partial`
* `Traj.trajectory_glue`
* `Traj.trajectory_length`
* `Traj.trajectory_nan_structure_false`
* `Traj.trajectory_nan_structure_partial`
* `Traj.trajectory_padding`
* `Traj.trajectory_prefix`
* `Traj.trajectory_resume`
* `Traj.trajectory_rounded`
* `Traj.trajectory_spec`
* `Traj.trajectory_tracks`
* `UnitChange.bfsWet_units`
* `UnitChange.eos_exists`
* `UnitChange.epsilonErrors_units`
* `UnitChange.gradient_units`
* `UnitChange.hom_lsqr_exists`
* `UnitChange.hom_solver_exists`
* `UnitChange.isopycnal_units`
* `UnitChange.mixedLayer_units`
* `UnitChange.norms_units`
* `UnitChange.ntp_units`
* `UnitChange.omega_units`
* `UnitChange.poisson_units`
* `UnitChange.same_gradient`
* `UnitChange.same_poisson`
* `UnitChange.trajectory_units`
* `UnitChange.veronis_units`
* `UnitChange.wetPerim_units`
* `VertSolve.Solved.exists_iff`
* `VertSolve.Solved.order`
* `VertSolve.acc_bound`
* `VertSolve.anomaly_accurate`
* `VertSolve.anomaly_order`
* `VertSolve.anomaly_perturbed`
* `VertSolve.anomaly_rounded`
* `VertSolve.anomaly_spec`
* `VertSolve.anomaly_window`
* `VertSolve.close_linear`
* `VertSolve.close_pchip`
* `VertSolve.interp_anti`
* `VertSolve.interp_mono`
* `VertSolve.jmd95_close`
* `VertSolve.jmdfwg06_close`
* `VertSolve.link_iso`
* `VertSolve.ntp_density_volume`
* `VertSolve.ntp_order_partial`
* `VertSolve.ntp_perturbed`
* `VertSolve.ntp_retrace`
* `VertSolve.ntp_window`
* `VertSolve.omega_accurate`
* `VertSolve.omega_nan`
* `VertSolve.omega_rounded`
* `VertSolve.omega_spec`
* `VertSolve.omega_window`
* `VertSolve.omega_zero`
* `VertSolve.piece_mono`
* `VertSolve.potential_accurate`
* `VertSolve.potential_density_volume`
* `VertSolve.potential_order`
* `VertSolve.potential_perturbed`
* `VertSolve.potential_rounded`
* `VertSolve.potential_spec`
* `VertSolve.potential_window`
* `VertSolve.stable_of_monotone`
* `VertSolve.trajectory_isopycnal`
* `VertSolve.trajectory_order_false`
* `VertSolve.trajectory_order_partial`
* `VertSolve.trajectory_path_independent`
* `VertSolve.trajectory_perturbed`
* `VertSolve.trajectory_retrace`
* `VertSolve.trajectory_window`
* `VertSolve.vertsolve1_few`
* `VertSolve.vertsolveOmega_pointwise`
* `VertSolve.vertsolve_pointwise`
* `VertSolve.window_unstable`
* `Xarray.surf_labels`
* `Xarray.surf_mismatch`
* `Xarray.surf_nocoord_false`
