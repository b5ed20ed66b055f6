import Verif.Props.BfsWork
import Verif.Props.BfsPerim

/-!
# Theorems on the searches (C17, C24–C31, C67) applied to concrete graphs and oceans
-/

namespace Bfs
open FloatLike Interp Traj
open Fl hiding nan

/-- a ring of four casts and an isolated one, the cast 2 dry -/
example : ∃ r, bfs exCsr 0 (fun n => n ≠ 2) 6 = some r ∧ r.q.Nodup ∧ ∀ v, v ∈ r.q ↔ Reach exCsr (fun n => n ≠ 2) 0 v := by
  obtain ⟨r, h, h1, _, h2, _⟩ := bfs_component exCsr 5 0 (fun n => n ≠ 2) (by unfold InRange; decide) (by decide) 6 (by decide)
  exact ⟨r, h, h1, h2⟩

example {r : St} (h : bfs exCsr 1 (fun n => n ≠ 2) 6 = some r) : r.q.Pairwise fun u v =>
    ∀ k, Walk exCsr (fun n => n ≠ 2) 1 k v → ∃ k', k' ≤ k ∧ Walk exCsr (fun n => n ≠ 2) 1 k' u :=
  bfs_order exCsr 5 1 _ (by unfold InRange; decide) (by decide) 6 r h (by decide)

theorem tri_range : InRange triCsr 3 := by unfold InRange; decide

/-- casts 0 and 1 hold the surface, cast 2 is to be wetted -/
example : ∃ r, bfsWet triCsr triOcean 0 triStp 4 = some r ∧ r.q.head? = some 0 ∧ WetSpec triCsr triOcean 3 0 triStp r.stp r.q r.newly :=
  bfsWet_spec triCsr triOcean 3 0 triStp tri_range (by decide) 4 (by decide) (by decide +kernel)

example : ∃ r, bfsWet triCsr triOcean 2 triStp 4 = some r ∧ r.q = [] ∧ r.newly = 0 ∧ r.stp = triStp :=
  bfsWet_dry_root triCsr triOcean 2 triStp 4 (by decide +kernel)

example : ∃ r, bfsWet triCsr triOcean 0 triStp 4 = some r ∧ r.calls.Nodup ∧ r.calls.length ≤ (r.q.map fun m => (triCsr.nbrs m).length).sum := by
  obtain ⟨r, h, h1, _, h2⟩ := wet_work triCsr triOcean 3 0 triStp tri_range (by decide) 4 (by decide) (by decide +kernel) (by decide)
  exact ⟨r, h, h1, h2⟩

example {r : WSt (Fl ℚ)} (h : bfsWet triCsr triOcean 0 triStp 4 = some r) : r.calls.Sublist (links triCsr r.q) :=
  (wet_calls triCsr triOcean 0 triStp 4 h).1

/-- the cast 2 has one bottle only: it stays dry -/
example {r : WSt (Fl ℚ)} (h : bfsWet triCsr (Ocean.ofCasts 30 (fin (1/100)) (fun s _ _ => s) .linear
      (fun n => if n = 2 then qCast [fin 1, Fl.nan] [fin 0, fin 0] [fin 0, fin 10] else qCast [fin 0, fin 2] [fin 0, fin 0] [fin 0, fin 10])
      (fun _ => ninf)) 0 triStp 4 = some r) : wet r.stp 2 = false := by
  refine bfsWet_two_data tri_range (by decide) (by decide) h (by decide +kernel) ?_
  rw [← ofCasts_data 0 (fin 1) (fun s _ _ => s) .linear (fun n => if n = 2 then qCast [fin 1, Fl.nan] [fin 0, fin 0] [fin 0, fin 10] else
    qCast [fin 0, fin 2] [fin 0, fin 0] [fin 0, fin 10]) (fun _ => ninf) 2]
  decide +kernel

/-- one cast with the surface wets the other two -/
theorem star_range : InRange starCsr 3 := by unfold InRange; decide

theorem star_reach (m : ℕ) (h : Reach starCsr (wet wStp) 0 m) : m = 0 := by
  obtain ⟨k, w⟩ := h
  have := w.good
  by_contra h
  simp [wet, wStp, h] at this

example : ∃ r q, wetPerim starCsr wOcean 3 0 wStp (fun _ => 0) 1 4 = some r ∧ bfs starCsr 0 (wet wStp) 4 = some q ∧ r.a.cnt + r.a.per ≤ 3 := by
  obtain ⟨r, q, h1, h2, h3, _⟩ := perim_queue starCsr wOcean 3 0 wStp star_range (by decide) (fun _ => 0) 1 4 (by decide)
  exact ⟨r, q, h1, h2, h3⟩

/-- what `np.empty` holds does not matter -/
example : (wetPerim starCsr wOcean 3 0 wStp (fun _ => 0) 1 4).map (fun r => (r.stp, r.newly)) =
    (wetPerim starCsr wOcean 3 0 wStp (fun i => 7 * i + 1) 1 4).map (fun r => (r.stp, r.newly)) :=
  perim_garbage starCsr wOcean 3 0 wStp star_range (by decide) _ _ 1 4

example := perim_exhaustive_partial (F := Fl ℚ) rfl (triOrd true) wOcean 3 0 wStp (by unfold InRange; decide) (by decide) (fun _ => 0) 4 4 (by decide) (by decide)

/-- the order of the neighbours of the star does not matter -/
def starCsr' : Csr where
  indptr i := [0, 2, 3, 4].getD i 4
  indices i := [2, 1, 0, 0].getD i 0

theorem star_perm (m : ℕ) : (starCsr.nbrs m).Perm (starCsr'.nbrs m) := by
  match m with
  | 0 => decide
  | 1 => decide
  | 2 => decide
  | m + 3 =>
    have h : ∀ k : ℕ, [0, 2, 3, 4].getD (k + 3) 4 = 4 := fun k => by cases k <;> rfl
    have h1 : starCsr.nbrs (m + 3) = [] := by simp only [Csr.nbrs, starCsr, h, show m + 3 + 1 = (m + 1) + 3 from rfl]; rfl
    have h2 : starCsr'.nbrs (m + 3) = [] := by simp only [Csr.nbrs, starCsr', h, show m + 3 + 1 = (m + 1) + 3 from rfl]; rfl
    rw [h1, h2]

example : ∃ r r', wetPerim starCsr wOcean 3 0 wStp (fun _ => 0) 1 4 = some r ∧ wetPerim starCsr' wOcean 3 0 wStp (fun _ => 1) 1 4 = some r' ∧
    r.stp = r'.stp ∧ r.newly = r'.newly := by
  refine perim_order_partial starCsr starCsr' wOcean 3 0 wStp star_range (by decide) star_perm _ _ 4 (by decide) ?_
  rintro a b m m' hm ha had hm' hb hbd
  obtain rfl := star_reach m hm
  obtain rfl := star_reach m' hm'
  have e : starCsr.nbrs 0 = [1, 2] := by decide
  rw [e] at ha hb
  simp only [List.mem_cons, List.not_mem_nil, or_false] at ha hb
  rcases ha with rfl | rfl <;> rcases hb with rfl | rfl <;> decide

/-- the count of newly wet casts, and their pressures below the mixed layer if all casts have the same -/
example : ∃ r, ∃ W : List ℕ, wetPerim starCsr { wOcean with pml := fun _ => fin 5 } 3 0 wStp (fun _ => 0) 1 4 = some r ∧
    r.newly = ((Finset.range 3).filter fun v => wet wStp v = false ∧ wet r.stp v = true).card ∧ ∀ v ∈ W, lt (fin 5) (r.stp v).2.2 = true := by
  obtain ⟨r, W, h, S⟩ := wetPerim_spec (F := Fl ℚ) rfl starCsr { wOcean with pml := fun _ => fin 5 } 3 0 wStp star_range (by decide) (fun _ => 0) 1 4 (by decide)
  exact ⟨r, W, h, (wetPerim_count S).1, fun v hv => perim_mixed_layer_partial S hv fun _ _ => rfl⟩

/-- a cast with the surface, next to two copies of the cast of the examples -/
example {r : WSt (Fl ℝ)} (h : bfsWet starCsr (Ocean.ofCasts (600 + 13) (fin (1/100)) (fun s t _ => s - t) .pchip (fun _ => exCast) (fun _ => ninf)) 0
      (fun n => if n = 0 then (fin 36, fin 4, fin 1) else (Fl.nan, Fl.nan, Fl.nan)) 4 = some r) (hw : wet r.stp 1 = true) :
    ∃ p, (r.stp 1).2.2 = fin p := by
  obtain ⟨_, _, _, _, _, _, p, _, _, _, _, _, _, e, _⟩ := bfsWet_neutral exEos .pchip (by norm_num) (fun _ => exCast) (fun _ => ninf) starCsr 3 0 _ star_range (by decide) 4 (by decide)
    (fun n hn => by
      by_cases h0 : n = 0
      · subst h0; exact ⟨36, 4, 1, rfl, by norm_num⟩
      · simp [wet, h0] at hn)
    (fun _ => ⟨1, 4, _, _, _, exGood, fun i _ _ => by split_ifs <;> norm_num, by norm_num⟩) r h 1 (by simp [wet]) hw
  exact ⟨p, by rw [e]⟩

end Bfs
