import Verif.Props.LandCrop

/-! # `omega_surf` on an ocean and on a larger one that contains it, in the same order (C195) -/

set_option linter.unusedSectionVars false

namespace Bfs
open FloatLike
variable {F : Type*} [FloatLike F]

/-- The second graph contains the first, at the places `f`. -/
structure EmbGraph (N : ℕ) (f : ℕ → ℕ) (G G' : Csr) : Prop where
  nbrs : ∀ m < N, G'.nbrs (f m) = (G.nbrs m).map f
  closed : ∀ m < N, ∀ n ∈ G.nbrs m, n < N

/-- The second ocean contains the first, at the places `f`. -/
structure EmbOcean (N : ℕ) (f : ℕ → ℕ) (O O' : Ocean F) : Prop where
  data : ∀ n < N, O'.data (f n) = O.data n
  ntpP : ∀ b, ∀ n < N, O'.ntpP b (f n) = O.ntpP b n
  st : ∀ n < N, ∀ p, O'.st (f n) p = O.st n p
  pml : ∀ n < N, O'.pml (f n) = O.pml n

variable {N : ℕ} {f : ℕ → ℕ} {G G' : Csr} {O O' : Ocean F}

/-- Both queues at the places `f`. -/
def moved (f : ℕ → ℕ) (x : List ℕ × List ℕ) : List ℕ × List ℕ := (x.1.map f, x.2.map f)

theorem visitL_emb (hf : Function.Injective f) {g g' : ℕ → Bool} (hg : ∀ n < N, g' (f n) = g n) (l : List ℕ) (hl : ∀ n ∈ l, n < N) (x : List ℕ × List ℕ) :
    (l.map f).foldl (visitL g') (moved f x) = moved f (l.foldl (visitL g) x) := by
  induction l generalizing x with
  | nil => rfl
  | cons n l ih =>
    have e : visitL g' (moved f x) (f n) = moved f (visitL g x n) := by
      unfold visitL moved
      simp only [hg n (hl n List.mem_cons_self), List.mem_map_of_injective hf]
      split_ifs <;> simp only [List.map_append, List.map_cons, List.map_nil]
    simp only [List.map_cons, List.foldl_cons]
    rw [e]
    exact ih (fun v hv => hl v (List.mem_cons_of_mem _ hv)) _

theorem EmbGraph.self (H : EmbGraph N f G G') : SameGraph (fun n => decide (n < N)) G G :=
  ⟨fun _ _ => rfl, fun m hm n hn => decide_eq_true (H.closed m (of_decide_eq_true hm) n hn)⟩

theorem loopL_emb (hf : Function.Injective f) (H : EmbGraph N f G G') {g g' : ℕ → Bool} (hg : ∀ n < N, g' (f n) = g n) (fuel : ℕ) :
    ∀ (hd : ℕ) (x : List ℕ × List ℕ), (∀ v ∈ x.1, v < N) → (∀ v ∈ x.2, v < N) →
      loopL G' g' fuel hd (moved f x) = (loopL G g fuel hd x).map (moved f) := by
  induction fuel with
  | zero => intro hd x _ _; rfl
  | succ fuel ih =>
    intro hd x h1 h2
    unfold loopL
    by_cases h : hd < x.1.length
    · have h' : hd < (moved f x).1.length := by unfold moved; rw [List.length_map]; exact h
      rw [dif_pos h, dif_pos h']
      have hm := h1 _ (List.getElem_mem h)
      have eg : (moved f x).1[hd] = f x.1[hd] := List.getElem_map ..
      obtain ⟨-, i1, i2⟩ := visitL_local (C := fun n => decide (n < N)) (f := g) (f' := g) (fun _ _ => rfl) (G.nbrs x.1[hd])
        (fun n hn => decide_eq_true (H.closed _ hm n hn)) x (fun v hv => decide_eq_true (h1 v hv)) (fun v hv => decide_eq_true (h2 v hv))
      rw [eg, H.nbrs _ hm, visitL_emb hf hg _ (H.closed _ hm)]
      exact ih _ _ (fun v hv => of_decide_eq_true (i1 v hv)) (fun v hv => of_decide_eq_true (i2 v hv))
    · have h' : ¬ hd < (moved f x).1.length := by unfold moved; rw [List.length_map]; exact h
      rw [dif_neg h, dif_neg h']
      rfl

theorem searchL_emb (hf : Function.Injective f) (H : EmbGraph N f G G') {g g' : ℕ → Bool} (hg : ∀ n < N, g' (f n) = g n) {root : ℕ} (hr : root < N) (fuel : ℕ) :
    searchL G' (f root) g' fuel = (searchL G root g fuel).map (moved f) := by
  unfold searchL
  rw [hg root hr, ← loopL_emb hf H hg]
  · congr 1
    unfold moved
    split_ifs <;> rfl
  · intro v hv
    dsimp only at hv
    split_ifs at hv
    · rw [List.mem_singleton.1 hv]; exact hr
    · cases hv
  · intro v hv; cases hv

theorem gather_emb (H : EmbOcean N f O O') {stp stp' : ℕ → F × F × F} (hs : ∀ n < N, stp' (f n) = stp n) {m : ℕ} (hm : m < N)
    (l : List ℕ) (hl : ∀ n ∈ l, n < N) : gather O' stp' (f m) (l.map f) = gather O stp m l := by
  unfold gather
  generalize ((lit 0 : F), 0) = acc
  induction l generalizing acc with
  | nil => rfl
  | cons n l ih =>
    have hn := hl n List.mem_cons_self
    simp only [List.map_cons, List.foldl_cons]
    rw [ih (fun v hv => hl v (List.mem_cons_of_mem _ hv)), hs n hn]
    unfold accept
    rw [H.ntpP _ _ hm, H.pml _ hn]

/-- The states of two wetting searches that do the same. -/
structure EmbQ (N : ℕ) (f : ℕ → ℕ) (x x' : QSt F) : Prop where
  R : x'.R = x.R.map f
  newly : x'.newly = x.newly
  stp : ∀ n < N, x'.stp (f n) = x.stp n
  inN : ∀ n ∈ x.R, n < N
  out : ∀ k, (∀ n < N, f n ≠ k) → wet x'.stp k = false

theorem pushL_emb (hf : Function.Injective f) {g g' : ℕ → Bool} (hg : ∀ n < N, g' (f n) = g n) (l : List ℕ) (hl : ∀ n ∈ l, n < N) (R : List ℕ) :
    (l.map f).foldl (pushL g') (R.map f) = (l.foldl (pushL g) R).map f := by
  induction l generalizing R with
  | nil => rfl
  | cons n l ih =>
    have e : pushL g' (R.map f) (f n) = (pushL g R n).map f := by
      unfold pushL
      simp only [hg n (hl n List.mem_cons_self), List.mem_map_of_injective hf]
      split_ifs <;> simp only [List.map_append, List.map_cons, List.map_nil]
    simp only [List.map_cons, List.foldl_cons]
    rw [e]
    exact ih (fun v hv => hl v (List.mem_cons_of_mem _ hv)) _

theorem wetOneL_emb (hf : Function.Injective f) (H : EmbGraph N f G G') (HO : EmbOcean N f O O') {g g' : ℕ → Bool} (hg : ∀ n < N, g' (f n) = g n) {x x' : QSt F}
    (S : EmbQ N f x x') {m : ℕ} (hm : m < N) : EmbQ N f (wetOneL G O g x m) (wetOneL G' O' g' x' (f m)) := by
  unfold wetOneL
  rw [HO.data m hm, H.nbrs m hm, gather_emb HO S.stp hm _ (H.closed m hm), S.R, S.newly]
  dsimp only
  rw [HO.st m hm]
  split_ifs
  · obtain ⟨-, i⟩ := pushL_local (C := fun n => decide (n < N)) (f := g) (f' := g) (fun _ _ => rfl) (G.nbrs m) (fun n hn => decide_eq_true (H.closed m hm n hn)) x.R
      (fun n hn => decide_eq_true (S.inN n hn))
    refine ⟨pushL_emb hf hg _ (H.closed m hm) _, rfl, ?_, fun n hn => of_decide_eq_true (i n hn), ?_⟩
    · intro n hn
      dsimp only
      by_cases h : n = m
      · subst h; rw [Function.update_self, Function.update_self]
      · rw [Function.update_of_ne h, Function.update_of_ne (fun e => h (hf e))]; exact S.stp n hn
    · intro k hk
      show isFinite (Function.update x'.stp (f m) _ k).2.2 = false
      rw [Function.update_of_ne (fun e => hk m hm e.symm)]; exact S.out k hk
  · exact S
  · exact S

theorem wetFold_emb (hf : Function.Injective f) (H : EmbGraph N f G G') (HO : EmbOcean N f O O') {g g' : ℕ → Bool} (hg : ∀ n < N, g' (f n) = g n) (l : List ℕ)
    (hl : ∀ n ∈ l, n < N) {x x' : QSt F} (S : EmbQ N f x x') :
    EmbQ N f (l.foldl (wetOneL G O g) x) ((l.map f).foldl (wetOneL G' O' g') x') := by
  induction l generalizing x x' with
  | nil => exact S
  | cons n l ih =>
    exact ih (fun v hv => hl v (List.mem_cons_of_mem _ hv)) (wetOneL_emb hf H HO hg S (hl n List.mem_cons_self))

theorem wetLoopL_emb (hf : Function.Injective f) (H : EmbGraph N f G G') (HO : EmbOcean N f O O') {g g' : ℕ → Bool} (hg : ∀ n < N, g' (f n) = g n) (reps : ℕ) :
    ∀ (done : ℕ) (x x' : QSt F), EmbQ N f x x' → EmbQ N f (wetLoopL G O g reps done x) (wetLoopL G' O' g' reps done x') := by
  induction reps with
  | zero => intro done x x' S; exact S
  | succ reps ih =>
    intro done x x' S
    unfold wetLoopL
    rw [S.R, List.length_map, ← List.map_drop]
    split_ifs
    · exact ih _ _ _ (wetFold_emb hf H HO hg _ (fun n hn => S.inN n (List.mem_of_mem_drop hn)) S)
    · exact S

/-- Wetting at the perimeter does the same on both, and nothing is wet elsewhere afterwards. -/
theorem wetPerim_emb (hf : Function.Injective f) (hnan : isFinite (nan : F) = false) (H : EmbGraph N f G G') (HO : EmbOcean N f O O') {N' root : ℕ}
    (hG' : InRange G' N') (hr : root < N) (hr' : f root < N')
    {stp stp' : ℕ → F × F × F} (hs : ∀ n < N, stp' (f n) = stp n) (garbage garbage' : ℕ → ℕ) (nrep fuel : ℕ) {r : PSt F}
    (h : wetPerim G O N root stp garbage nrep fuel = some r) :
    ∃ r', wetPerim G' O' N' (f root) stp' garbage' nrep fuel = some r' ∧ r'.newly = r.newly ∧ (∀ n < N, r'.stp (f n) = r.stp n) ∧
      ∀ k, (∀ n < N, f n ≠ k) → wet r'.stp k = false := by
  have hg : ∀ n < N, wet stp' (f n) = wet stp n := fun n hn => by unfold wet; rw [hs n hn]
  have e := searchL_emb hf H hg hr fuel
  rcases wetPerim_refines (O := O) (stp := stp) H.closed hr garbage nrep fuel with ⟨h1, _⟩ | ⟨a, y, L, h1, h2, A⟩
  · rw [h1] at h; cases h
  rw [h] at h1
  cases h1
  unfold wetPerimL at h2
  cases hx : searchL G root (wet stp) fuel with
  | none => rw [hx] at h2; cases h2
  | some x =>
    rw [hx] at h2 e
    have e : searchL G' (f root) (wet stp') fuel = some (moved f x) := e
    obtain ⟨i1, i2⟩ := (searchL_local (C := fun n => decide (n < N)) H.self (f := wet stp) (f' := wet stp) (fun _ _ => rfl) (decide_eq_true hr) fuel).2 x hx
    rcases wetPerim_refines (O := O') (stp := stp') hG' hr' garbage' nrep fuel with ⟨h3, h4⟩ | ⟨a', y', L', h3, h4, A'⟩
    · unfold wetPerimL at h4
      rw [e] at h4
      cases h4
    unfold wetPerimL at h4
    rw [e] at h4
    dsimp only at h2 h4
    have S0 : EmbQ N f (⟨x.2, cutP x.1 stp, 0⟩ : QSt F) ⟨(moved f x).2, cutP (moved f x).1 stp', 0⟩ := by
      refine ⟨rfl, rfl, ?_, fun n hn => of_decide_eq_true (i2 n hn), ?_⟩
      · intro n hn
        show cutP (moved f x).1 stp' (f n) = cutP x.1 stp n
        unfold cutP moved
        simp only [List.mem_map_of_injective hf, hs n hn]
      · intro k hk
        show wet (cutP (moved f x).1 stp') k = false
        unfold wet cutP moved
        rw [if_neg]
        · exact hnan
        · intro hh
          obtain ⟨n, hn, e⟩ := List.mem_map.1 hh
          exact hk n (of_decide_eq_true (i1 n hn)) e
    have S := wetLoopL_emb hf H HO hg nrep 0 _ _ S0
    cases h2
    cases h4
    refine ⟨a', h3, ?_, ?_, ?_⟩
    · rw [A'.newly, A.newly, S.newly]
    · rw [A'.stp, A.stp]; exact S.stp
    · rw [A'.stp]; exact S.out

end Bfs

namespace OmegaMat
open FloatLike
variable {F : Type*} [FloatLike F]

/-- An edge at the places `f`. -/
def movedE (f : ℕ → ℕ) (x : ℕ × ℕ) : ℕ × ℕ := (f x.1, f x.2)

theorem idxOf_moved {f : ℕ → ℕ} (hf : Function.Injective f) (m : List ℕ) (x : ℕ) : (m.map f).idxOf (f x) = m.idxOf x := by
  induction m with
  | nil => rfl
  | cons a m ih =>
    by_cases h : a = x
    · subst h; rw [List.map_cons, List.idxOf_cons_self, List.idxOf_cons_self]
    · have : f a ≠ f x := fun e => h (hf e)
      rw [List.map_cons, List.idxOf_cons_ne _ h, List.idxOf_cons_ne _ this, ih]

theorem remap_moved {f : ℕ → ℕ} (hf : Function.Injective f) {m : List ℕ} (hm : m.Nodup) (x : ℕ) : remap (m.map f) (f x) = remap m x := by
  rw [remap_eq hm, remap_eq (hm.map hf), idxOf_moved hf]
  simp only [List.mem_map_of_injective hf]

theorem helper_emb (eos : Ntp.EosST F) {N : ℕ} {f : ℕ → ℕ} (hf : Function.Injective f) {s t p s' t' p' : ℕ → F}
    (h : ∀ n < N, s' (f n) = s n ∧ t' (f n) = t n ∧ p' (f n) = p n) {edges : List (ℕ × ℕ)} (hE : ∀ e ∈ edges, e.1 < N ∧ e.2 < N) (ratio : Ratio F) {m : List ℕ}
    (hnd : m.Nodup) : helper eos s' t' p' (edges.map (movedE f)) ratio (m.map f) = helper eos s t p edges ratio m := by
  have hin : ∀ x ∈ edges, Ntp.epsErr eos s' t' p' (movedE f x) = Ntp.epsErr eos s t p x := by
    intro x hx
    obtain ⟨a1, a2, a3⟩ := h _ (hE x hx).1
    obtain ⟨b1, b2, b3⟩ := h _ (hE x hx).2
    unfold Ntp.epsErr movedE
    simp only [a1, a2, a3, b1, b2, b3]
  have hr1 : ∀ x : ℕ × ℕ, remap (m.map f) (movedE f x).1 = remap m x.1 := fun x => remap_moved hf hnd x.1
  have hr2 : ∀ x : ℕ × ℕ, remap (m.map f) (movedE f x).2 = remap m x.2 := fun x => remap_moved hf hnd x.2
  unfold helper
  cases ratio with
  | scalar d =>
    dsimp only
    rw [List.map_map, show ((fun x : ℕ × ℕ => (x, d)) ∘ movedE f) = (fun y : (ℕ × ℕ) × F => (movedE f y.1, y.2)) ∘ (fun x => (x, d)) from rfl, ← List.map_map,
      List.filter_map, List.map_map]
    have ef : (fun x : (ℕ × ℕ) × F => decide (0 ≤ remap (m.map f) x.1.1) && decide (0 ≤ remap (m.map f) x.1.2)) ∘ (fun y : (ℕ × ℕ) × F => (movedE f y.1, y.2)) =
        fun x => decide (0 ≤ remap m x.1.1) && decide (0 ≤ remap m x.1.2) := by
      funext y
      simp only [Function.comp_apply, hr1, hr2]
    rw [ef]
    apply List.map_congr_left
    intro x hx
    obtain ⟨y, hy, rfl⟩ := List.mem_map.1 (List.mem_filter.1 hx).1
    simp only [Function.comp_apply, hr1, hr2, hin y hy]
  | arr l =>
    dsimp only
    rw [List.zip_map_left, List.filter_map, List.map_map]
    have ef : (fun x : (ℕ × ℕ) × F => decide (0 ≤ remap (m.map f) x.1.1) && decide (0 ≤ remap (m.map f) x.1.2)) ∘ Prod.map (movedE f) id =
        fun x => decide (0 ≤ remap m x.1.1) && decide (0 ≤ remap m x.1.2) := by
      funext y
      simp only [Function.comp_apply, Prod.map_fst, hr1, hr2]
    rw [ef]
    apply List.map_congr_left
    intro x hx
    have hy := (List.of_mem_zip (List.mem_filter.1 hx).1).1
    simp only [Function.comp_apply, Prod.map_fst, Prod.map_snd, id_eq, hr1, hr2, hin _ hy]

/-- Two solvers that do the same, the second on the casts at the places `f`. -/
structure EmbSolver (N : ℕ) (f : ℕ → ℕ) (solver solver' : (ℕ → F) → (ℕ → F) → (ℕ → F) → List ℕ → ℕ → Res (ℕ → F)) : Prop where
  same : ∀ s t p s' t' p' m r φ, m.Nodup → r ∈ m → (∀ n < N, s' (f n) = s n ∧ t' (f n) = t n ∧ p' (f n) = p n) →
    solver s t p m r = .ok φ → ∃ φ', solver' s' t' p' (m.map f) (f r) = .ok φ' ∧ (∀ n, φ' (f n) = φ n) ∧ ∀ k, k ∉ m.map f → φ' k = nan
  empty : ∀ s t p r, solver s t p [] r = .indexError

theorem single_emb {f : ℕ → ℕ} (hf : Function.Injective f) (x : ℕ) :
    (∀ n, Function.update (fun _ => (nan : F)) (f x) (lit 0) (f n) = Function.update (fun _ => (nan : F)) x (lit 0) n) ∧
      ∀ k, k ∉ [x].map f → Function.update (fun _ => (nan : F)) (f x) (lit 0) k = nan := by
  constructor
  · intro n
    by_cases h : n = x
    · subst h; rw [Function.update_self, Function.update_self]
    · rw [Function.update_of_ne h, Function.update_of_ne (fun e => h (hf e))]
  · intro k hk
    rw [Function.update_of_ne (by simpa using hk)]

theorem scatter_moved {f : ℕ → ℕ} (hf : Function.Injective f) {m : List ℕ} (hm : m.Nodup) (sol : ℕ → F) (n : ℕ) : scatter (m.map f) sol (f n) = scatter m sol n := by
  rw [scatter_eq hm, scatter_eq (hm.map hf), idxOf_moved hf]
  simp only [List.mem_map_of_injective hf]

theorem poisson_emb (spsolve : ℕ → (ℕ → ℕ → F) → (ℕ → F) → ℕ → F) (eosST : Ntp.EosST F) {N : ℕ} {f : ℕ → ℕ} (hf : Function.Injective f) {edges : List (ℕ × ℕ)}
    (hE : ∀ e ∈ edges, e.1 < N ∧ e.2 < N) (ratio : Ratio F) :
    EmbSolver N f (fun s t p m r => poisson spsolve eosST s t p edges ratio m r) fun s t p m r => poisson spsolve eosST s t p (edges.map (movedE f)) ratio m r := by
  constructor
  · intro s t p s' t' p' m r φ hnd hr h hp
    unfold poisson at hp ⊢
    rw [List.length_map]
    split_ifs at hp ⊢ with hl
    · match m, hl, hp with
      | [x], _, hp =>
        cases hp
        exact ⟨_, rfl, single_emb hf x⟩
    · have er : refOf (m.map f) (f r) = refOf m r := by unfold refOf; rw [remap_moved hf hnd, List.length_map]
      rw [helper_emb eosST hf h hE ratio hnd, er]
      split at hp
      · next D L hs =>
        cases hp
        refine ⟨_, rfl, ?_, ?_⟩
        · intro n
          by_cases hn : n = r
          · subst hn; rw [Function.update_self, Function.update_self]
          · rw [Function.update_of_ne hn, Function.update_of_ne (fun e => hn (hf e)), scatter_moved hf hnd]
        · intro k hk
          rw [Function.update_of_ne (by rintro rfl; exact hk (List.mem_map_of_mem hr)), scatter_eq (hnd.map hf), if_neg hk]
      · cases hp
  · intro s t p r; rfl

theorem gradient_emb (lsqr : ℕ → ℕ → (ℕ → ℕ → F) → (ℕ → F) → ℕ → F) (eosST : Ntp.EosST F) {N : ℕ} {f : ℕ → ℕ} (hf : Function.Injective f) {edges : List (ℕ × ℕ)}
    (hE : ∀ e ∈ edges, e.1 < N ∧ e.2 < N) (ratio : Ratio F) :
    EmbSolver N f (fun s t p m r => gradient lsqr eosST s t p edges ratio m r) fun s t p m r => gradient lsqr eosST s t p (edges.map (movedE f)) ratio m r := by
  constructor
  · intro s t p s' t' p' m r φ hnd hr h hp
    unfold gradient at hp ⊢
    rw [List.length_map]
    split_ifs at hp ⊢ with hl
    · match m, hl, hp with
      | [x], _, hp =>
        cases hp
        exact ⟨_, rfl, single_emb hf x⟩
    · have er : refOf (m.map f) (f r) = refOf m r := by unfold refOf; rw [remap_moved hf hnd, List.length_map]
      rw [helper_emb eosST hf h hE ratio hnd, er]
      cases hp
      refine ⟨_, rfl, ?_, ?_⟩
      · intro n; exact scatter_moved hf hnd _ n
      · intro k hk
        rw [scatter_eq (hnd.map hf), if_neg hk]
  · intro s t p r; rfl

end OmegaMat

namespace Omega
open FloatLike Fzero Interp Traj VertSolve Bfs
variable {F : Type*} [FloatLike F]

/-- Two calls of `omega_surf` with the same options, the second on an ocean that contains the first, in the same order, at the places `f`, and other casts not
linked with it. -/
structure EmbCfg (f : ℕ → ℕ) (c c' : Cfg F) : Prop where
  mono : StrictMono f
  inN : ∀ n < c.N, f n < c'.N
  graph : EmbGraph c.N f c.G c'.G
  casts : ∀ n < c.N, c'.casts (f n) = c.casts n
  pml : ∀ n < c.N, c'.pml (f n) = c.pml n
  solver : OmegaMat.EmbSolver c.N f c.solver c'.solver
  pin : c'.pin = f c.pin
  kind : c'.kind = c.kind
  eos : c'.eos = c.eos
  sqrt : c'.sqrt = c.sqrt
  tol : c'.tol = c.tol
  tolPhi : c'.tolPhi = c.tolPhi
  tolP : c'.tolP = c.tolP
  diags : c'.diags = c.diags
  iterMin : c'.iterMin = c.iterMin
  iterMax : c'.iterMax = c.iterMax
  startWet : c'.startWet = c.startWet
  stopWet : c'.stopWet = c.stopWet
  nrep : c'.nrep = c.nrep
  fuel : c'.fuel = c.fuel

variable {f : ℕ → ℕ} {c c' : Cfg F}

theorem EmbCfg.ocean (H : EmbCfg f c c') : EmbOcean c.N f c.ocean c'.ocean := by
  constructor
  · intro n hn
    show (Ocean.ofCasts _ _ _ _ _ _).data _ = (Ocean.ofCasts _ _ _ _ _ _).data n
    unfold Ocean.ofCasts
    dsimp only
    rw [H.casts n hn]
  · intro b n hn
    show (Ocean.ofCasts _ _ _ _ _ _).ntpP b _ = (Ocean.ofCasts _ _ _ _ _ _).ntpP b n
    unfold Ocean.ofCasts
    dsimp only
    rw [H.casts n hn, H.fuel, H.tol, H.eos, H.kind]
  · intro n hn p
    show (Ocean.ofCasts _ _ _ _ _ _).st _ p = (Ocean.ofCasts _ _ _ _ _ _).st n p
    unfold Ocean.ofCasts
    dsimp only
    rw [H.casts n hn, H.kind]
  · exact H.pml

theorem wetting_emb (L : NanLaws F) (H : EmbCfg f c c') (K : Ok c) (K' : Ok c') {stp stp' : Surf F} (hs : ∀ n < c.N, stp' (f n) = stp n)
    {r : Surf F × ℕ} (h : wetting c stp = .ok r) :
    ∃ r', wetting c' stp' = .ok r' ∧ r'.2 = r.2 ∧ (∀ n < c.N, r'.1 (f n) = r.1 n) ∧ ∀ k, (∀ n < c.N, f n ≠ k) → wet r'.1 k = false := by
  unfold wetting at h
  obtain ⟨q, h1, h2⟩ := bind_ok h
  cases h2
  obtain ⟨q', i1, i2, i3, i4⟩ := wetPerim_emb H.mono.injective L.fin H.graph H.ocean K'.graph K.pin (H.pin ▸ K'.pin) hs c.garbage c'.garbage c.nrep
    c.fuel (ofOption_ok h1)
  refine ⟨(q'.stp, q'.newly), ?_, i2, i3, i4⟩
  unfold wetting
  rw [H.pin, H.nrep, H.fuel, i1]
  rfl

theorem reach_emb (H : EmbCfg f c c') (K : Ok c) {good good' : ℕ → Bool} (hg : ∀ n < c.N, good' (f n) = good n) (k : ℕ) :
    Reach c'.G good' c'.pin k ↔ ∃ n, (n < c.N ∧ Reach c.G good c.pin n) ∧ f n = k := by
  rw [H.pin]
  constructor
  · rintro ⟨i, w⟩
    induction w with
    | root h => exact ⟨c.pin, ⟨K.pin, 0, .root (by rw [← hg _ K.pin]; exact h)⟩, rfl⟩
    | step _ hn hgood ih =>
      obtain ⟨m, ⟨hm, j, w⟩, rfl⟩ := ih
      rw [H.graph.nbrs _ hm] at hn
      obtain ⟨n, hn', rfl⟩ := List.mem_map.1 hn
      have hc := H.graph.closed _ hm _ hn'
      exact ⟨n, ⟨hc, _, .step w hn' (by rw [← hg _ hc]; exact hgood)⟩, rfl⟩
  · rintro ⟨n, ⟨-, i, w⟩, rfl⟩
    refine ⟨i, (?_ : n < c.N ∧ Walk c'.G good' (f c.pin) i (f n)).2⟩
    induction w with
    | root h => exact ⟨K.pin, .root (by rw [hg _ K.pin]; exact h)⟩
    | step _ hn hgood ih =>
      have hc := H.graph.closed _ ih.1 _ hn
      exact ⟨hc, .step ih.2 (by rw [H.graph.nbrs _ ih.1]; exact List.mem_map_of_mem hn) (by rw [hg _ hc]; exact hgood)⟩

theorem map_sorted (hf : StrictMono f) {l : List ℕ} (h : l.Pairwise (· ≤ ·)) : (l.map f).Pairwise (· ≤ ·) :=
  List.pairwise_map.2 (h.imp fun h => hf.monotone h)

theorem region_emb (L : NanLaws F) (H : EmbCfg f c c') (K : Ok c) (K' : Ok c') {iter : ℕ} {stp stp' : Surf F}
    (hs : ∀ n < c.N, stp' (f n) = stp n) {r : Surf F × List ℕ × ℕ} (h : region c iter stp = .ok r) :
    ∃ r', region c' iter stp' = .ok r' ∧ r'.2.1 = r.2.1.map f ∧ r'.2.2 = r.2.2 ∧ (∀ n < c.N, r'.1 (f n) = r.1 n) ∧ ∀ n ∈ r.2.1, n < c.N := by
  unfold region at h ⊢
  rw [H.startWet, H.stopWet]
  split_ifs at h ⊢ with hw
  · obtain ⟨q, h1, h2⟩ := bind_ok h
    cases h2
    obtain ⟨q', i1, i2, i3, i5⟩ := wetting_emb L H K K' hs h1
    rw [i1]
    refine ⟨_, rfl, ?_, i2, i3, fun n hn => List.mem_range.1 (List.mem_filter.1 hn).1⟩
    dsimp only
    refine sorted_ext (List.nodup_range.filter _) ((List.nodup_range.filter _).map H.mono.injective)
      ((List.pairwise_lt_range.imp (fun h => Nat.le_of_lt h)).filter _)
      (map_sorted H.mono ((List.pairwise_lt_range.imp (fun h => Nat.le_of_lt h)).filter _)) ?_
    intro k
    simp only [List.mem_map, List.mem_filter, List.mem_range]
    constructor
    · rintro ⟨hk, hw⟩
      by_contra hc
      have : wet q'.1 k = false := i5 k fun n hn e => hc ⟨n, ⟨hn, by rw [← i3 n hn, e]; exact hw⟩, e⟩
      unfold wet at this
      rw [this] at hw; cases hw
    · rintro ⟨n, ⟨hn, hw⟩, rfl⟩
      exact ⟨H.inN n hn, by rw [i3 n hn]; exact hw⟩
  · obtain ⟨q, h1, h2⟩ := bind_ok h
    cases h2
    obtain ⟨q1, a1, a2, -, a3, -⟩ := bfs_component c.G c.N c.pin (wet stp) K.graph K.pin c.fuel K.fuel
    obtain ⟨q2, b1, b2, -, b3, -⟩ := bfs_component c'.G c'.N c'.pin (wet stp') K'.graph K'.pin c'.fuel K'.fuel
    have h1 : Bfs.bfs c.G c.pin (wet stp) c.fuel = some q := ofOption_ok h1
    rw [h1] at a1
    cases a1
    have b1 : Bfs.bfs c'.G c'.pin (fun n => isFinite (stp' n).2.2) c'.fuel = some q2 := b1
    rw [b1]
    have hin : ∀ n, Reach c.G (wet stp) c.pin n → n < c.N := by
      rintro n ⟨i, w⟩
      induction w with
      | root _ => exact K.pin
      | step _ hn _ ih => exact H.graph.closed _ ih _ hn
    refine ⟨_, rfl, ?_, rfl, hs, ?_⟩
    · dsimp only
      refine sorted_ext ((List.perm_insertionSort _ _).nodup_iff.2 b2) (((List.perm_insertionSort _ _).nodup_iff.2 a2).map H.mono.injective)
        (List.pairwise_insertionSort _ _) (map_sorted H.mono (List.pairwise_insertionSort _ _)) ?_
      intro k
      simp only [List.mem_map, List.mem_insertionSort, a3, b3]
      rw [reach_emb H K (good := wet stp) (fun n hn => by unfold wet; rw [hs n hn])]
      exact ⟨fun ⟨n, h, e⟩ => ⟨n, h.2, e⟩, fun ⟨n, h, e⟩ => ⟨n, ⟨hin n h, h⟩, e⟩⟩
    · intro n hn
      exact hin n ((a3 n).1 ((List.mem_insertionSort _).1 hn))

/-- One pass. -/
theorem step_emb (L : NanLaws F) (H : EmbCfg f c c') (K : Ok c) (K' : Ok c') {pinP : F} {iter : ℕ} {stp stp' : Surf F}
    (hs : ∀ n < c.N, stp' (f n) = stp n) {r : Iter F} (h : step c pinP iter stp = .ok r) :
    ∃ r', step c' pinP iter stp' = .ok r' ∧ (∀ n < c.N, r'.phi (f n) = r.phi n) ∧ (∀ n < c.N, r'.old (f n) = r.old n) ∧
      (∀ n < c.N, r'.new (f n) = r.new n) ∧ (∀ k, (∀ n < c.N, f n ≠ k) → r'.phi k = nan) ∧
      ∀ k < c'.N, (∀ n < c.N, f n ≠ k) → (r'.new k).2.2 = nan := by
  have hml : ∀ n < c.N, removeML c' iter stp' (f n) = removeML c iter stp n := by
    intro n hn
    unfold removeML
    split_ifs
    · dsimp only
      rw [hs n hn, H.pml n hn]
    · exact hs n hn
  unfold step at h
  obtain ⟨⟨stp1, qu, nw⟩, h1, h2⟩ := bind_ok h
  obtain ⟨phi, h3, h4⟩ := bind_ok h2
  obtain ⟨stp2, h5, h6⟩ := bind_ok h4
  cases h6
  have h3 := ofMat_ok h3
  have h5 := ofOutcome_ok h5
  obtain ⟨j1, -, -, j4, j5, -⟩ := region_spec L.fin K h1
  obtain ⟨⟨stp1', qu', nw'⟩, i1, i2, i2', i3, i4⟩ := region_emb L H K K' hml h1
  dsimp only at h3 h5 i2 i2' i3 i4 ⊢
  subst i2
  have hpin : c.pin ∈ qu := by
    rcases Bool.eq_false_or_eq_true (wet (removeML c iter stp) c.pin) with hh | hh
    · exact j4 hh
    · rw [j5 hh, H.solver.empty] at h3; cases h3
  obtain ⟨phi', hsol, hphi, hout⟩ := H.solver.same _ _ _ (fun n => (stp1' n).1) (fun n => (stp1' n).2.1) (fun n => (stp1' n).2.2) _ _ _ j1 hpin
    (fun n hn => by rw [i3 n hn]; exact ⟨rfl, rfl, rfl⟩) h3
  have hnan : ∀ k, (∀ n < c.N, f n ≠ k) → phi' k = nan := by
    intro k hk
    apply hout
    intro hh
    obtain ⟨n, hn, e⟩ := List.mem_map.1 hh
    exact hk n (i4 n hn) e
  obtain ⟨v1, v2⟩ := (vertsolveOmega_pointwise _ _ _ _ _ _ _ _ _).1 h5
  classical
  let out' : Surf F := fun k => if k < c'.N then (if h : ∃ n < c.N, f n = k then stp2 h.choose else (nan, nan, nan)) else stp1' k
  have hat : ∀ n < c.N, out' (f n) = stp2 n := by
    intro n hn
    show (if _ then (if h : _ then _ else _) else _) = _
    have he : ∃ n' < c.N, f n' = f n := ⟨n, hn, rfl⟩
    rw [if_pos (H.inN n hn), dif_pos he, H.mono.injective he.choose_spec.2]
  have hoff : ∀ k < c'.N, (∀ n < c.N, f n ≠ k) → out' k = (nan, nan, nan) := by
    intro k hk hn
    show (if _ then (if h : _ then _ else _) else _) = _
    rw [if_pos hk, dif_neg (by rintro ⟨n, h, e⟩; exact hn n h e)]
  have hv' : vertsolveOmega c'.fuel c'.tol c'.kind c'.eos phi' c'.casts stp1' c'.N = .ret out' := by
    rw [vertsolveOmega_pointwise]
    constructor
    · intro k hk
      by_cases he : ∃ n < c.N, f n = k
      · obtain ⟨n, hn, rfl⟩ := he
        rw [hat n hn, H.fuel, H.tol, H.kind, H.eos, H.casts n hn, i3 n hn, hphi n]
        exact v1 n hn
      · have he : ∀ n < c.N, f n ≠ k := fun n hn e => he ⟨n, hn, e⟩
        rw [hoff k hk he]
        unfold omegaSolve1
        rw [hnan k he, L.zero, L.fin]
        simp
    · intro n hn
      show (if n < c'.N then _ else _) = _
      rw [if_neg (by omega)]
  refine ⟨⟨stp1', Function.update out' c'.pin ((out' c'.pin).1, (out' c'.pin).2.1, pinP), qu.map f, phi', nw'⟩, ?_, fun n _ => hphi n, i3, ?_, hnan, ?_⟩
  · unfold step
    rw [i1]
    show (ofMat (c'.solver _ _ _ (qu.map f) c'.pin)).bind _ = _
    rw [H.pin, hsol]
    show (ofOutcome _).bind _ = _
    rw [hv']
    rfl
  · intro n hn
    dsimp only
    rw [H.pin, hat _ K.pin]
    by_cases hp : n = c.pin
    · subst hp; rw [Function.update_self, Function.update_self]
    · rw [Function.update_of_ne hp, Function.update_of_ne (fun e => hp (H.mono.injective e)), hat n hn]
  · intro k hk hn
    show (Function.update out' c'.pin _ k).2.2 = _
    rw [H.pin, Function.update_of_ne (fun e => hn c.pin K.pin e.symm), hoff k hk hn]

theorem nanmean_emb (H : EmbCfg f c c') {g g' : ℕ → F} (h : ∀ n < c.N, g' (f n) = g n)
    (h2 : ∀ k < c'.N, (∀ n < c.N, f n ≠ k) → isNaN (g' k) = true) : nanmean c'.N g' = nanmean c.N g := by
  classical
  have hl : (List.range c'.N).filter (fun k => decide (∃ n < c.N, f n = k)) = (List.range c.N).map f := by
    refine sorted_ext (List.nodup_range.filter _) (List.nodup_range.map H.mono.injective)
        ((List.pairwise_lt_range.imp (fun h => Nat.le_of_lt h)).filter _) (map_sorted H.mono (List.pairwise_lt_range.imp (fun h => Nat.le_of_lt h))) ?_
    intro k
    simp only [List.mem_filter, List.mem_range, List.mem_map, decide_eq_true_eq]
    exact ⟨fun hh => hh.2, fun hh => ⟨by obtain ⟨n, hn, rfl⟩ := hh; exact H.inN n hn, hh⟩⟩
  have key : ((List.range c'.N).map g').filter (fun x => !isNaN x) = ((List.range c.N).map g).filter (fun x => !isNaN x) := by
    have e1 : (List.range c.N).map g = ((List.range c.N).map f).map g' := by
      rw [List.map_map]
      exact List.map_congr_left fun n hn => (h n (List.mem_range.1 hn)).symm
    rw [e1, ← hl, List.filter_map, List.filter_map, List.filter_filter]
    congr 1
    apply List.filter_congr
    intro k hk
    by_cases he : ∃ n < c.N, f n = k
    · simp [he]
    · have := h2 k (List.mem_range.1 hk) fun n hn e => he ⟨n, hn, e⟩
      simp [Function.comp, this]
  unfold nanmean
  rw [key]

theorem loop_emb (L : NanLaws F) (H : EmbCfg f c c') (K : Ok c) (K' : Ok c') {pinP : F} :
    ∀ (left iter : ℕ) (s s' e : State F), (∀ n < c.N, s'.stp (f n) = s.stp n) → s'.rms = s.rms → s'.last = s.last →
      loop c pinP left iter s = .ok e →
      ∃ e', loop c' pinP left iter s' = .ok e' ∧ e'.last = e.last ∧ ∀ n < c.N, e'.stp (f n) = e.stp n := by
  intro left
  induction left with
  | zero => intro iter s s' e h1 _ h3 h; cases h; exact ⟨s', rfl, h3, h1⟩
  | succ left ih =>
    intro iter s s' e h1 h2 h3 h
    unfold loop at h ⊢
    obtain ⟨r, h4, h5⟩ := bind_ok h
    obtain ⟨r', i1, i4, i5, i6, i7, i9⟩ := step_emb L H K K' h1 h4
    rw [i1]
    have hphi : phiMAV c' r' = phiMAV c r := by
      unfold phiMAV
      apply nanmean_emb H
      · intro n hn; rw [i4 n hn]
      · intro k _ hc; rw [i7 k hc]; exact L.abs
    have hrms : dpRMS c' s'.rms r' = dpRMS c s.rms r := by
      unfold dpRMS
      rw [H.diags, H.tolP, H.sqrt, h2]
      have : (nanmean c'.N fun n => dp r' n * dp r' n) = nanmean c.N fun n => dp r n * dp r n := by
        apply nanmean_emb H
        · intro n hc; unfold dp; rw [i5 n hc, i6 n hc]
        · intro n hn hc; unfold dp; rw [i9 n hn hc]; exact L.sq _
      rw [this]
    show ∃ e', (if converged c' iter r' (dpRMS c' s'.rms r') then Res.ok (after c' iter s' r') else
      loop c' pinP left (iter + 1) (after c' iter s' r')) = _ ∧ _
    have hconv : converged c' iter r' (dpRMS c' s'.rms r') = converged c iter r (dpRMS c s.rms r) := by
      unfold converged
      rw [hphi, hrms, H.tolPhi, H.tolP, H.iterMin]
    rw [hconv]
    split_ifs at h5 ⊢
    · cases h5
      exact ⟨_, rfl, rfl, i6⟩
    · exact ih _ (after c iter s r) (after c' iter s' r') _ i6 hrms rfl h5

/-- Two initial pressures that are the same; interpolation to the second raises at none of the other casts. -/
def EmbPInit (f : ℕ → ℕ) (c c' : Cfg F) : PInit F → PInit F → Prop
  | .scalar p, .scalar p' => p' = p
  | .array p, .array p' => (∀ n < c.N, p' (f n) = p n) ∧
      ∀ k < c'.N, (∀ n < c.N, f n ≠ k) → (interpTwo c' (p' k) k).isSome = true
  | _, _ => False

theorem init_emb (L : NanLaws F) (H : EmbCfg f c c') (K : Ok c) (K' : Ok c') {p0 p0' : PInit F} (hp : EmbPInit f c c' p0 p0') {stp : Surf F}
    (h : init c p0 = .ok stp) : ∃ stp', init c' p0' = .ok stp' ∧ (∀ n < c.N, stp' (f n) = stp n) ∧ pinPOf c' p0' = pinPOf c p0 := by
  have hint : ∀ p, ∀ n < c.N, interpTwo c' p (f n) = interpTwo c p n := by
    intro p n hn
    unfold interpTwo
    rw [H.kind, H.casts n hn]
  unfold init at h
  obtain ⟨raw, h1, h2⟩ := bind_ok h
  obtain ⟨raw', i1, i2, i3⟩ : ∃ raw', initRaw c' p0' = .ok raw' ∧ (∀ n < c.N, raw' (f n) = raw n) ∧ pinPOf c' p0' = pinPOf c p0 := by
    match p0, p0', hp with
    | .scalar p, .scalar p', hp =>
      obtain rfl : p' = p := hp
      unfold initRaw at h1
      obtain ⟨st, h3, h1⟩ := bind_ok h1
      obtain ⟨q, h4, h1⟩ := bind_ok h1
      cases h1
      obtain ⟨q', j1, -, j3, -⟩ := wetting_emb L H K K' (stp' := Function.update (fun _ => (nan, nan, nan)) (f c.pin) (st.1, st.2, p'))
        (fun n _ => by
          by_cases e : n = c.pin
          · subst e; rw [Function.update_self, Function.update_self]
          · rw [Function.update_of_ne e, Function.update_of_ne (fun e' => e (H.mono.injective e'))]) h4
      refine ⟨q'.1, ?_, j3, rfl⟩
      unfold initRaw
      dsimp only
      rw [H.pin, hint _ _ K.pin, ofOption_ok h3]
      show (wetting c' _).bind _ = _
      rw [j1]; rfl
    | .array p, .array p', hp =>
      unfold initRaw at h1
      dsimp only at h1
      split_ifs at h1 with h3
      cases h1
      refine ⟨fun n => if n < c'.N then ((((interpTwo c' (p' n) n).getD (nan, nan)).1), ((interpTwo c' (p' n) n).getD (nan, nan)).2, p' n)
          else (nan, nan, nan), ?_, ?_, ?_⟩
      · unfold initRaw
        dsimp only
        rw [if_pos]
        intro k hk
        by_cases he : ∃ n < c.N, f n = k
        · obtain ⟨n, hn, rfl⟩ := he
          rw [hp.1 n hn, hint _ n hn]
          exact h3 n hn
        · exact hp.2 k hk fun n hn e => he ⟨n, hn, e⟩
      · intro n hn
        dsimp only
        rw [if_pos (H.inN n hn), if_pos hn, hp.1 n hn, hint _ n hn]
      · show p' c'.pin = p c.pin
        rw [H.pin, hp.1 _ K.pin]
  split_ifs at h2 with hn
  cases h2
  refine ⟨fun n => if isNaN (raw' n).1 then ((raw' n).1, (raw' n).2.1, nan) else raw' n, ?_, ?_, i3⟩
  · unfold init
    rw [i1]
    show (if isNaN (raw' c'.pin).1 = true then _ else _) = _
    rw [H.pin, i2 _ K.pin, if_neg hn]
  · intro n hn
    dsimp only
    rw [i2 n hn]

/-- **C195.** If `omega_surf` returns, then on any ocean that contains this one, in the same order, it returns after the same number of passes, with the same
surface there. -/
theorem omega_emb (L : NanLaws F) (H : EmbCfg f c c') (K : Ok c) (K' : Ok c') {p0 p0' : PInit F} (hp : EmbPInit f c c' p0 p0') {s : State F}
    (h : omega c p0 = .ok s) : ∃ s', omega c' p0' = .ok s' ∧ s'.last = s.last ∧ ∀ n < c.N, s'.stp (f n) = s.stp n := by
  unfold omega at h
  obtain ⟨stp, h1, h2⟩ := bind_ok h
  obtain ⟨e, h3, h4⟩ := bind_ok h2
  obtain ⟨stp', i1, i2, i3⟩ := init_emb L H K K' hp h1
  obtain ⟨e', j1, j2, j3⟩ := loop_emb L H K K' _ _ ⟨stp, lit 0, _, 0⟩ ⟨stp', lit 0, if c'.diags then [diag0 c' stp'] else [], 0⟩ _ i2 rfl rfl h3
  split_ifs at h4 with hd
  cases h4
  refine ⟨e', ?_, j2, j3⟩
  unfold omega
  rw [i1]
  show (loop c' (pinPOf c' p0') c'.iterMax 1 _).bind _ = _
  rw [i3, H.iterMax, j1]
  show (if _ then _ else _) = _
  rw [H.diags, j2, if_neg hd]

end Omega
