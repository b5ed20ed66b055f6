import Verif.Lemmas.BfsPerim2
import Verif.Props.BfsWet

/-! # Properties of `bfs.py`: wetting the perimeter (C28, C29, C30, C31, C32) -/

namespace Bfs
open FloatLike
set_option linter.unusedSectionVars false
variable {F : Type*} [FloatLike F]

/-! ## C28: the queue used from both ends -/

/-- **C28.** The single array of length `N`, filled from the left with the component and from the right with the perimeter,
never collides: at the end the two parts together hold at most `N` entries, all distinct, the left part being the list of
`bfs_conncomp1` and the right part only dry casts. -/
theorem perim_queue (G : Csr) (O : Ocean F) (N root : ℕ) (stp : ℕ → F × F × F) (hG : InRange G N) (hr : root < N)
    (garbage : ℕ → ℕ) (nrep fuel : ℕ) (hf : N < fuel) :
    ∃ r q, wetPerim G O N root stp garbage nrep fuel = some r ∧ bfs G root (wet stp) fuel = some q ∧
      r.a.cnt + r.a.per ≤ N ∧ (List.range r.a.cnt).map r.a.qu = q.q ∧
      ((List.range r.a.cnt).map r.a.qu ++ (List.range r.a.per).map (fun j => r.a.qu (N - 1 - j))).Nodup ∧
      ∀ j, j < r.a.per → wet stp (r.a.qu (N - 1 - j)) = false := by
  obtain ⟨q, hq, _⟩ := bfs_component G N root (wet stp) hG hr fuel hf
  rcases searchA_refines (fin0 := wet stp) hG hr garbage fuel with ⟨h1, h2⟩ | ⟨a, x, h1, h2, A⟩
  · exfalso
    unfold searchL at h2
    unfold bfs at hq
    rcases Bool.eq_false_or_eq_true (wet stp root) with hw | hw
    · rw [if_pos hw] at h2 hq
      rcases loopL_loop (G := G) (fin0 := wet stp) fuel 0 ([root], []) ⟨[root], Function.update (wet stp) root false⟩ rfl
        (by
          intro v
          by_cases hv : v = root
          · subst hv; simp
          · simp [hv]) ⟨by simp, by intro i m hi; omega⟩ with ⟨h, _⟩ | ⟨_, _, _, h, _⟩
      · rw [h] at hq; exact absurd hq (by simp)
      · rw [h] at h2; exact absurd h2 (by simp)
    · rw [if_neg (by rw [hw]; simp)] at h2
      obtain ⟨f, rfl⟩ : ∃ f, fuel = f + 1 := ⟨fuel - 1, by omega⟩
      rw [loopL, dif_neg (by simp)] at h2
      exact absurd h2 (by simp)
  · obtain ⟨q', hq', hqx, _⟩ := searchL_bfs (by omega) h2
    rw [hq] at hq'
    obtain rfl := Option.some.inj hq'
    have hc : (List.range a.cnt).map a.qu = x.1 := by
      apply List.ext_getElem
      · simp [A.cnt]
      · intro i h1 h2
        simp only [List.getElem_map, List.getElem_range]
        exact A.left i h2
    have h1' : searchA G N root (fun n => isFinite (stp n).2.2) garbage fuel = some a := h1
    have A2 : Abs2 N (wet stp) x.1
        (wetLoop G O N nrep 0 ⟨a, fun n => if ((List.range a.cnt).map a.qu).contains n then stp n
          else ((stp n).1, (stp n).2.1, nan), 0⟩)
        (wetLoopL G O (wet stp) nrep 0 ⟨x.2, cutP x.1 stp, 0⟩) := by
      apply Abs2.wetLoop hG
      refine ⟨A, ?_, rfl⟩
      simp only [hc]
      funext n
      simp [cutP]
    refine ⟨_, q, by unfold wetPerim; rw [h1'], hq, ?_⟩
    generalize wetLoop G O N nrep 0 _ = r at A2 ⊢
    generalize wetLoopL G O (wet stp) nrep 0 _ = y at A2
    have B := A2.abs
    have hl : (List.range r.a.cnt).map r.a.qu = x.1 := by
      apply List.ext_getElem
      · simp [B.cnt]
      · intro i h1 h2
        simp only [List.getElem_map, List.getElem_range]
        exact B.left i h2
    have hrr : (List.range r.a.per).map (fun j => r.a.qu (N - 1 - j)) = y.R := by
      apply List.ext_getElem
      · simp [B.per]
      · intro i h1 h2
        simp only [List.getElem_map, List.getElem_range]
        exact B.right i h2
    refine ⟨?_, by rw [hl, hqx], ?_, ?_⟩
    · rw [B.cnt, B.per]; exact B.room
    · rw [hl, hrr, List.nodup_append]
      refine ⟨B.ndL, B.ndR, ?_⟩
      rintro v hv w hw rfl
      have := (B.memL v hv).1
      rw [(B.memR v hw).1] at this
      exact absurd this (by simp)
    · intro j hj
      rw [B.per] at hj
      rw [B.right j hj]
      exact (B.memR _ (List.getElem_mem hj)).1

/-- **C28.** The effect does not depend on what the uninitialised array held. -/
theorem perim_garbage (G : Csr) (O : Ocean F) (N root : ℕ) (stp : ℕ → F × F × F) (hG : InRange G N) (hr : root < N)
    (g g' : ℕ → ℕ) (nrep fuel : ℕ) :
    (wetPerim G O N root stp g nrep fuel).map (fun r => (r.stp, r.newly)) =
      (wetPerim G O N root stp g' nrep fuel).map (fun r => (r.stp, r.newly)) := by
  rcases wetPerim_refines (O := O) (stp := stp) hG hr g nrep fuel with ⟨h1, h2⟩ | ⟨a, x, L, h1, h2, A⟩ <;>
  rcases wetPerim_refines (O := O) (stp := stp) hG hr g' nrep fuel with ⟨i1, i2⟩ | ⟨b, y, M, i1, i2, B⟩
  · rw [h1, i1]
  · rw [h2] at i2; exact absurd i2 (by simp)
  · rw [h2] at i2; exact absurd i2 (by simp)
  · rw [h2] at i2
    obtain rfl := Option.some.inj i2
    rw [h1, i1]
    simp [A.stp, A.newly, B.stp, B.newly]

/-! ## C29: the effect -/

/-- What a call of `bfs_conncomp1_wet_perim` does to the surface `stp` to give `stp'`; `W` lists the casts it wets, in order. -/
structure PerimSpec (G : Csr) (O : Ocean F) (N root nrep : ℕ) (stp stp' : ℕ → F × F × F) (newly : ℕ) (W : List ℕ) : Prop where
  /-- casts are wetted at most once -/
  nodup : W.Nodup
  /-- `newly_wet` counts them -/
  count : newly = W.length
  /-- casts of the component of the root are unchanged -/
  kept : ∀ v, Reach G (wet stp) root v → stp' v = stp v
  /-- the pressure is set to NaN on all other casts that are not wetted, without touching `s` and `t` -/
  cut : ∀ v, ¬ Reach G (wet stp) root v → v ∉ W → stp' v = ((stp v).1, (stp v).2.1, nan)
  /-- wetted casts were dry -/
  was_dry : ∀ v ∈ W, wet stp v = false ∧ v < N
  /-- the pressure of a wetted cast is the mean of its neutral links with one or more of its neighbours `ns`, each in the component
  or wetted earlier, each link ending below the mixed layer *of that neighbour*; `s`, `t` are the interpolants there -/
  links : ∀ i v, W[i]? = some v → O.data v = true ∧ ∃ ns : List ℕ, ns.Sublist (G.nbrs v) ∧ ns ≠ [] ∧
    (∀ n ∈ ns, (Reach G (wet stp) root n ∨ n ∈ W.take i) ∧
      isFinite (O.ntpP (stp' n) v) = true ∧ lt (O.pml n) (O.ntpP (stp' n) v) = true) ∧
    ∃ p, p = ns.foldl (fun a n => a + O.ntpP (stp' n) v) (lit 0) / lit ns.length ∧
      stp' v = ((O.st v p).1, (O.st v p).2, p)
  /-- a dry cast with data, next to the component, that was not wetted has no acceptable link from the component -/
  tried : 0 < nrep → ∀ m v, Reach G (wet stp) root m → v ∈ G.nbrs m → wet stp v = false → O.data v = true → v ∉ W →
    ∀ n ∈ G.nbrs v, Reach G (wet stp) root n → isFinite (O.ntpP (stp n) v) = false ∨ lt (O.pml n) (O.ntpP (stp n) v) = false
  /-- with more than `N` passes allowed, every dry cast with data next to a wetted cast was also tried -/
  tried' : N < nrep → ∀ m v, m ∈ W → v ∈ G.nbrs m → wet stp v = false → O.data v = true → v ∉ W →
    ∀ n ∈ G.nbrs v, Reach G (wet stp) root n → isFinite (O.ntpP (stp n) v) = false ∨ lt (O.pml n) (O.ntpP (stp n) v) = false

/-- **C29.** Every graph, ocean, surface, root and number of repetitions, any arithmetic in which NaN is not finite. -/
theorem wetPerim_spec (hnan : isFinite (nan : F) = false) (G : Csr) (O : Ocean F) (N root : ℕ) (stp : ℕ → F × F × F)
    (hG : InRange G N) (hr : root < N) (garbage : ℕ → ℕ) (nrep fuel : ℕ) (hf : N < fuel) :
    ∃ r W, wetPerim G O N root stp garbage nrep fuel = some r ∧ PerimSpec G O N root nrep stp r.stp r.newly W := by
  obtain ⟨r, _, hr1, _⟩ := perim_queue G O N root stp hG hr garbage nrep fuel hf
  obtain ⟨q, hq, _, _, hmem, _⟩ := bfs_component G N root (wet stp) hG hr fuel hf
  rcases wetPerim_refines (O := O) (stp := stp) hG hr garbage nrep fuel with ⟨h1, _⟩ | ⟨a, y, L', h1, h2, A⟩
  · rw [hr1] at h1; exact absurd h1 (by simp)
  unfold wetPerimL at h2
  cases hs : searchL G root (wet stp) fuel with
  | none => rw [hs] at h2; exact absurd h2 (by simp)
  | some x =>
    rw [hs] at h2
    simp only [Option.some.injEq] at h2
    obtain ⟨q', hq', hqx, P⟩ := searchL_bfs (by omega) hs
    rw [hq] at hq'
    obtain rfl := Option.some.inj hq'
    rw [hqx] at hmem
    obtain ⟨_, x', _, hs', A1⟩ : ∃ a' x', searchA G N root (wet stp) garbage fuel = some a' ∧
        searchL G root (wet stp) fuel = some x' ∧ Abs N (wet stp) a' x' := by
      rcases searchA_refines (fin0 := wet stp) hG hr garbage fuel with ⟨_, h⟩ | h
      · rw [hs] at h; exact absurd h (by simp)
      · exact h
    rw [hs] at hs'
    obtain rfl := Option.some.inj hs'
    have hL : ∀ v ∈ x.1, wet stp v = true := fun v hv => (A1.memL v hv).1
    have hw1 : ∀ v, wet (cutP x.1 stp) v = decide (v ∈ x.1) := by
      intro v
      by_cases hv : v ∈ x.1
      · simp only [wet, cutP, hv, if_true, decide_true]; exact hL v hv
      · simp [wet, cutP, hv, hnan]
    have I0 : QInv N G O (wet stp) x.1 (cutP x.1 stp) ⟨x.2, cutP x.1 stp, 0⟩ [] 0 := by
      refine ⟨by simp, by simp, rfl, fun _ _ => rfl, A1.ndR, fun v hv => (A1.memR v hv).1, fun v hv => (A1.memR v hv).2,
        ?_, ?_, by simp, by simp⟩
      · intro v hv
        obtain ⟨m, a, b⟩ := P.sound v hv
        exact ⟨m, Or.inl a, b⟩
      · rintro m (hm | hm) v hv hfv
        · obtain ⟨i, hi, rfl⟩ := List.mem_iff_getElem.1 hm
          exact P.closed i _ hi (List.getElem?_eq_getElem hi) v hv hfv
        · exact absurd hm (by simp)
    obtain ⟨W, j, _, I, _, hj, hj'⟩ := QInv.loop hG hL hw1 nrep 0 _ [] I0 (by simp)
    rw [h2] at I hj'
    -- the final perimeter list extends the first
    have hsubW : ∀ v ∈ W, v ∈ y.R := fun v hv => List.take_subset _ _ (I.subW v hv)
    have hLW : ∀ v ∈ x.1, v ∉ W := fun v hv hw => by
      have := I.memR v (hsubW v hw)
      rw [hL v hv] at this; exact absurd this (by simp)
    have hcut : ∀ v ∈ x.1, cutP x.1 stp v = stp v := fun v hv => by simp [cutP, hv]
    have acc : ∀ n (p : F), accept O n p = false → isFinite p = false ∨ lt (O.pml n) p = false := by
      intro n p h
      exact Bool.and_eq_false_iff.1 h
    refine ⟨a, W, h1, I.ndW, by rw [A.newly, I.newly], ?_, ?_, ?_, ?_, ?_, ?_⟩
    · intro v hv
      rw [A.stp, I.old v (hLW v ((hmem v).2 hv)), hcut v ((hmem v).2 hv)]
    · intro v hv hvW
      have : v ∉ x.1 := fun h => hv ((hmem v).1 h)
      rw [A.stp, I.old v hvW]
      simp [cutP, this]
    · intro v hv
      exact ⟨I.memR v (hsubW v hv), I.ltR v (hsubW v hv)⟩
    · intro i v hi
      obtain ⟨d, ns, n1, n2, n3, n4⟩ := I.new i v hi
      rw [A.stp]
      refine ⟨d, ns, n1, n2, ?_, _, rfl, n4⟩
      intro n hn
      obtain ⟨e1, e2⟩ := n3 n hn
      unfold accept at e2
      simp only [Bool.and_eq_true] at e2
      exact ⟨e1.imp (fun h => (hmem n).1 h) id, e2.1, e2.2⟩
    · intro hn m v hm hv hvd hdv hvW n hn' hnR
      have hvx : v ∈ x.2 := by
        obtain ⟨i, hi, rfl⟩ := List.mem_iff_getElem.1 ((hmem m).2 hm)
        exact P.closed i _ hi (List.getElem?_eq_getElem hi) v hv hvd
      have hpre : x.2 <+: y.R := by
        rw [← h2]
        have : ∀ (reps done : ℕ) (st : QSt F), st.R <+: (wetLoopL G O (wet stp) reps done st).R := by
          intro reps
          induction reps with
          | zero => intro done st; exact List.prefix_rfl
          | succ reps ih =>
            intro done st
            rw [wetLoopL]
            split_ifs
            · exact (wetOneL_fold_prefix ..).trans (ih _ _)
            · exact List.prefix_rfl
        exact this nrep 0 ⟨x.2, cutP x.1 stp, 0⟩
      have hvt : v ∈ y.R.take j := by
        obtain ⟨e, he⟩ := hpre
        have hj0 := hj hn
        simp only at hj0
        rw [← he, List.take_append, List.take_of_length_le hj0]
        simp [hvx]
      have := I.rej v hvt hvW hdv n hn' ((hmem n).2 hnR)
      rw [hcut n ((hmem n).2 hnR)] at this
      exact acc n _ this
    · intro hn m v hm hv hvd hdv hvW n hn' hnR
      have hvR := I.cover m (Or.inr hm) v hv hvd
      have hvt : v ∈ y.R.take j := by
        rw [List.take_of_length_le (hj' (by omega))]; exact hvR
      have := I.rej v hvt hvW hdv n hn' ((hmem n).2 hnR)
      rw [hcut n ((hmem n).2 hnR)] at this
      exact acc n _ this

/-- **C29.** Only casts with two data in a row are wetted. -/
theorem PerimSpec.two_data {fuel' : ℕ} {tol : F} {eos : F → F → F → F} {kind : PPKind} {c : ℕ → Cast F} {pml : ℕ → F} {G : Csr}
    {N root nrep : ℕ} {stp stp' : ℕ → F × F × F} {newly : ℕ} {W : List ℕ}
    (h : PerimSpec G (Ocean.ofCasts fuel' tol eos kind c pml) N root nrep stp stp' newly W) : ∀ v ∈ W, TwoData (c v) := by
  intro v hv
  obtain ⟨i, hi, rfl⟩ := List.mem_iff_getElem.1 hv
  exact (ofCasts_data ..).1 (h.links i _ (List.getElem?_eq_getElem hi)).1

/-- **C32 (partial: links from the component of the root).** With `n_rep > N`, after the call every cast with data that is
still dry and is adjacent to a wet cast has no acceptable neutral link from any cast of the component of the root.
Missing: links from the casts wetted by the call itself, where it is false (`perim_exhaustive_false`), since every
perimeter cast is tried once only. -/
theorem perim_exhaustive_partial (hnan : isFinite (nan : F) = false) (G : Csr) (O : Ocean F) (N root : ℕ)
    (stp : ℕ → F × F × F) (hG : InRange G N) (hr : root < N) (garbage : ℕ → ℕ) (nrep fuel : ℕ) (hf : N < fuel)
    (hn : N < nrep) :
    ∃ r, wetPerim G O N root stp garbage nrep fuel = some r ∧
      ∀ m v, wet r.stp m = true → v ∈ G.nbrs m → wet stp v = false → wet r.stp v = false → O.data v = true →
        (∀ w ∈ G.nbrs v, Reach G (wet stp) root w →
          isFinite (O.ntpP (r.stp w) v) = false ∨ lt (O.pml w) (O.ntpP (r.stp w) v) = false) ∨
        -- the mean of the links overflowed (impossible in exact arithmetic)
        ∃ ns : List ℕ, isFinite (ns.foldl (fun a n => a + O.ntpP (r.stp n) v) (lit 0) / lit ns.length) = false ∧ ns ≠ [] ∧
          ∀ n ∈ ns, isFinite (O.ntpP (r.stp n) v) = true := by
  obtain ⟨r, W, h, S⟩ := wetPerim_spec hnan G O N root stp hG hr garbage nrep fuel hf
  refine ⟨r, h, ?_⟩
  intro m v hm hv hvd hvd' hdat
  by_cases hvW : v ∈ W
  · right
    obtain ⟨i, hi, rfl⟩ := List.mem_iff_getElem.1 hvW
    obtain ⟨_, ns, _, n2, n3, p, hp, he⟩ := S.links i _ (List.getElem?_eq_getElem hi)
    simp only [wet, he] at hvd'
    exact ⟨ns, by rw [← hp]; exact hvd', n2, fun n hn => (n3 n hn).2.1⟩
  · left
    intro w hw hwr
    rw [S.kept w hwr]
    by_cases hmW : m ∈ W
    · exact S.tried' hn m v hmW hv hvd hdat hvW w hw hwr
    · by_cases hmr : Reach G (wet stp) root m
      · exact S.tried (by omega) m v hmr hv hvd hdat hvW w hw hwr
      · have := S.cut m hmr hmW
        simp only [wet, this, hnan] at hm
        exact absurd hm (by simp)

/-! ### Exact arithmetic -/

section exact
variable {α : Type*} [Field α] [LinearOrder α] [IsStrictOrderedRing α]
open Fl

/-- sums of finite numbers -/
theorem foldl_fin (f : ℕ → Fl α) (g : ℕ → α) : ∀ (ns : List ℕ) (a : α), (∀ n ∈ ns, f n = fin (g n)) →
    ns.foldl (fun a n => a + f n) (fin a) = fin (a + (ns.map g).sum) := by
  intro ns
  induction ns with
  | nil => intro a _; simp
  | cons n ns ih =>
    intro a h
    rw [List.foldl_cons, h n (by simp), fin_add, ih _ (fun n hn => h n (by simp [hn]))]
    congr 1
    simp only [List.map_cons, List.sum_cons]
    ring

/-- In exact arithmetic the pressure of a wetted cast is the number `mean of links`. -/
theorem PerimSpec.mean {G : Csr} {O : Ocean (Fl α)} {N root nrep : ℕ} {stp stp' : ℕ → Fl α × Fl α × Fl α} {newly : ℕ}
    {W : List ℕ} (S : PerimSpec G O N root nrep stp stp' newly W) {i v : ℕ} (hi : W[i]? = some v) :
    ∃ (ns : List ℕ) (g : ℕ → α), ns.Sublist (G.nbrs v) ∧ ns ≠ [] ∧
      (∀ n ∈ ns, O.ntpP (stp' n) v = fin (g n) ∧ lt (O.pml n) (fin (g n)) = true) ∧
      (stp' v).2.2 = fin ((ns.map g).sum / ns.length) := by
  obtain ⟨_, ns, h1, h2, h3, p, hp, h4⟩ := S.links i v hi
  have : ∀ n, ∃ y, n ∈ ns → O.ntpP (stp' n) v = fin y := by
    intro n
    by_cases hn : n ∈ ns
    · obtain ⟨y, hy⟩ := (isFinite_iff _).1 (h3 n hn).2.1
      exact ⟨y, fun _ => hy⟩
    · exact ⟨0, fun h => absurd h hn⟩
  choose g hg using this
  refine ⟨ns, g, h1, h2, fun n hn => ⟨hg n hn, by rw [← hg n hn]; exact (h3 n hn).2.2⟩, ?_⟩
  rw [h4, hp]
  simp only
  have e := foldl_fin (fun n => O.ntpP (stp' n) v) g ns 0 hg
  have e0 : (lit 0 : Fl α) = fin 0 := by simp
  have hlen : ((ns.length : ℚ) : α) ≠ 0 := by
    have : ns.length ≠ 0 := by simpa using h2
    simpa using this
  rw [e0, e, lit_eq, fin_div _ _ hlen]
  simp

/-- **C29** in exact arithmetic: `newly_wet` is the number of casts whose pressure was not finite before and is finite after, and
after the call the finite casts are the component of the root and the newly wetted ones. -/
theorem wetPerim_count {G : Csr} {O : Ocean (Fl α)} {N root nrep : ℕ} {stp stp' : ℕ → Fl α × Fl α × Fl α} {newly : ℕ}
    {W : List ℕ} (S : PerimSpec G O N root nrep stp stp' newly W) :
    newly = ((Finset.range N).filter fun v => wet stp v = false ∧ wet stp' v = true).card ∧
      (∀ v, wet stp' v = true ↔ Reach G (wet stp) root v ∨ v ∈ W) := by
  have hW : ∀ v ∈ W, wet stp' v = true := by
    intro v hv
    obtain ⟨i, hi, rfl⟩ := List.mem_iff_getElem.1 hv
    obtain ⟨ns, g, _, _, _, h⟩ := S.mean (List.getElem?_eq_getElem hi)
    simp [wet, h]
  have hwet : ∀ v, wet stp' v = true ↔ Reach G (wet stp) root v ∨ v ∈ W := by
    intro v
    constructor
    · intro h
      by_contra hc
      push Not at hc
      have := S.cut v hc.1 hc.2
      simp [wet, this] at h
    · rintro (h | h)
      · have e := S.kept v h
        obtain ⟨k, w⟩ := h
        simp only [wet, e]
        exact w.good
      · exact hW v h
  refine ⟨?_, hwet⟩
  rw [S.count, ← List.toFinset_card_of_nodup S.nodup]
  congr 1
  ext v
  simp only [List.mem_toFinset, Finset.mem_filter, Finset.mem_range]
  constructor
  · intro h; exact ⟨(S.was_dry v h).2, (S.was_dry v h).1, hW v h⟩
  · rintro ⟨_, h, h'⟩
    rcases (hwet v).1 h' with ⟨k, w⟩ | h2
    · rw [w.good] at h; exact absurd h (by simp)
    · exact h2

theorem sum_gt {g : ℕ → α} {c : α} : ∀ ns : List ℕ, ns ≠ [] → (∀ n ∈ ns, c < g n) → c * ns.length < (ns.map g).sum := by
  intro ns
  induction ns with
  | nil => intro h; exact absurd rfl h
  | cons n ns ih =>
    intro _ h
    rcases ns with _ | ⟨n', ns⟩
    · simp [h n (by simp)]
    · have := ih (by simp) (fun n hn => h n (by simp [hn]))
      have h1 := h n (by simp)
      simp only [List.map_cons, List.sum_cons, List.length_cons] at this ⊢
      push_cast at this ⊢
      linarith

/-- **C30 (partial: neighbours with the same mixed layer).** In exact arithmetic, a newly wetted cast whose neighbours all
have the same mixed layer pressure as it is wetted below its own mixed layer.  Missing: neighbours with other mixed layer
pressures, where it is false (`perim_mixed_layer_false`), since the code compares with the neighbour's. -/
theorem perim_mixed_layer_partial {G : Csr} {O : Ocean (Fl α)} {N root nrep : ℕ} {stp stp' : ℕ → Fl α × Fl α × Fl α}
    {newly : ℕ} {W : List ℕ} (S : PerimSpec G O N root nrep stp stp' newly W) {v : ℕ} (hv : v ∈ W)
    (hml : ∀ n ∈ G.nbrs v, O.pml n = O.pml v) : lt (O.pml v) (stp' v).2.2 = true := by
  obtain ⟨i, hi, rfl⟩ := List.mem_iff_getElem.1 hv
  obtain ⟨ns, g, h1, h2, h3, h4⟩ := S.mean (List.getElem?_eq_getElem hi)
  rw [h4]
  have hlt : ∀ n ∈ ns, lt (O.pml W[i]) (fin (g n)) = true := by
    intro n hn
    rw [← hml n (h1.subset hn)]; exact (h3 n hn).2
  have hlen : (0 : α) < ns.length := by
    have : 0 < ns.length := List.length_pos_iff.2 h2
    exact_mod_cast this
  cases hp : O.pml W[i] with
  | nan =>
    exfalso
    obtain ⟨n, hn⟩ := List.exists_mem_of_ne_nil ns h2
    have := hlt n hn
    rw [hp] at this
    simp at this
  | pinf =>
    exfalso
    obtain ⟨n, hn⟩ := List.exists_mem_of_ne_nil ns h2
    have := hlt n hn
    rw [hp] at this
    exact absurd this (by show ¬ (false = true); simp)
  | ninf => rfl
  | fin c =>
    rw [lt_fin]
    have : ∀ n ∈ ns, c < g n := by
      intro n hn
      have := hlt n hn
      rw [hp] at this
      simpa using this
    have := sum_gt ns h2 this
    simp only [decide_eq_true_eq]
    rwa [lt_div_iff₀ hlen]

/-! ### C31: order of the neighbours -/

/-- new value of a perimeter cast from the surface `stp1` -/
def wetVal (G : Csr) (O : Ocean F) (stp1 : ℕ → F × F × F) (m : ℕ) : F × F × F :=
  let ns := linkers O stp1 m (G.nbrs m)
  let p := sumP O stp1 m ns / lit ns.length
  ((O.st m p).1, (O.st m p).2, p)

/-- is the perimeter cast wetted from the surface `stp1`? -/
def wetCond (G : Csr) (O : Ocean F) (stp1 : ℕ → F × F × F) (m : ℕ) : Bool :=
  O.data m && decide (linkers O stp1 m (G.nbrs m) ≠ [])

theorem wetOneL_indep (G : Csr) (O : Ocean F) (fin0 : ℕ → Bool) (stp1 : ℕ → F × F × F) (R : List ℕ)
    (hR : ∀ a ∈ R, ∀ b ∈ R, b ∉ G.nbrs a) :
    ∀ (l : List ℕ) (st : QSt F), l.Nodup → (∀ v ∈ l, v ∈ R) → (∀ v ∈ l, st.stp v = stp1 v) → (∀ v, v ∉ R → st.stp v = stp1 v) →
      (∀ v, (l.foldl (wetOneL G O fin0) st).stp v = if v ∈ l ∧ wetCond G O stp1 v = true then wetVal G O stp1 v else st.stp v) ∧
      (l.foldl (wetOneL G O fin0) st).newly = st.newly + (l.filter (wetCond G O stp1)).length := by
  intro l
  induction l with
  | nil => intro st _ _ _ _; simp
  | cons m l ih =>
    intro st hnd hlR hl hout
    have hmR := hlR m (by simp)
    have hnb : ∀ n ∈ G.nbrs m, st.stp n = stp1 n := fun n hn => hout n (fun h => hR m hmR n h hn)
    have hlk : linkers O st.stp m (G.nbrs m) = linkers O stp1 m (G.nbrs m) := linkers_congr hnb
    have hsum : sumP O st.stp m (linkers O stp1 m (G.nbrs m)) = sumP O stp1 m (linkers O stp1 m (G.nbrs m)) :=
      sumP_congr fun n hn => hnb n (List.mem_of_mem_filter hn)
    rw [List.nodup_cons] at hnd
    have step : (wetOneL G O fin0 st m).stp = (if wetCond G O stp1 m = true then Function.update st.stp m (wetVal G O stp1 m) else st.stp) ∧
        (wetOneL G O fin0 st m).newly = st.newly + if wetCond G O stp1 m = true then 1 else 0 := by
      unfold wetOneL wetCond wetVal
      simp only [gather_eq, hlk, hsum]
      by_cases hd : O.data m = true
      · by_cases hz : linkers O stp1 m (G.nbrs m) = []
        · simp [hd, hz]
        · simp [hd, hz]
      · simp [hd]
    simp only [List.foldl_cons]
    obtain ⟨h1, h2⟩ := ih (wetOneL G O fin0 st m) hnd.2 (fun v hv => hlR v (by simp [hv]))
      (by
        intro v hv
        have hvm : v ≠ m := by rintro rfl; exact hnd.1 hv
        rw [step.1]
        split_ifs
        · rw [Function.update_of_ne hvm]; exact hl v (by simp [hv])
        · exact hl v (by simp [hv]))
      (by
        intro v hv
        have hvm : v ≠ m := by rintro rfl; exact hv hmR
        rw [step.1]
        split_ifs
        · rw [Function.update_of_ne hvm]; exact hout v hv
        · exact hout v hv)
    refine ⟨?_, ?_⟩
    · intro v
      rw [h1 v, step.1]
      by_cases hvm : v = m
      · subst hvm
        by_cases hc : wetCond G O stp1 v = true
        · simp [hc, hnd.1]
        · simp [hc]
      · by_cases hc : wetCond G O stp1 m = true
        · simp [hc, hvm]
        · simp [hc, hvm]
    · rw [h2, step.2, List.filter_cons]
      split_ifs
      · simp; omega
      · simp

/-- **C31 (partial: one pass, perimeter casts not adjacent to each other).** In exact arithmetic, if the neighbours are listed in
another order, `n_rep = 1`, and no two dry casts next to the component of the root are adjacent, then the effect is the
same.  Missing: adjacent perimeter casts and further passes, where it is false (`perim_order_false`). -/
theorem perim_order_partial (G G' : Csr) (O : Ocean (Fl α)) (N root : ℕ) (stp : ℕ → Fl α × Fl α × Fl α) (hG : InRange G N)
    (hr : root < N) (hperm : ∀ m, (G.nbrs m).Perm (G'.nbrs m)) (g g' : ℕ → ℕ) (fuel : ℕ) (hf : N < fuel)
    (hind : ∀ a b m m', Reach G (wet stp) root m → a ∈ G.nbrs m → wet stp a = false → Reach G (wet stp) root m' →
      b ∈ G.nbrs m' → wet stp b = false → b ∉ G.nbrs a) :
    ∃ r r', wetPerim G O N root stp g 1 fuel = some r ∧ wetPerim G' O N root stp g' 1 fuel = some r' ∧
      r.stp = r'.stp ∧ r.newly = r'.newly := by
  have hG' : InRange G' N := fun m hm n hn => hG m hm n ((hperm m).mem_iff.2 hn)
  have hwalk : ∀ k v, Walk G (wet stp) root k v ↔ Walk G' (wet stp) root k v := by
    intro k v
    constructor <;> intro w
    · induction w with
      | root h => exact .root h
      | step _ hn hg ih => exact .step ih ((hperm _).mem_iff.1 hn) hg
    · induction w with
      | root h => exact .root h
      | step _ hn hg ih => exact .step ih ((hperm _).mem_iff.2 hn) hg
  have hreach : ∀ v, Reach G (wet stp) root v ↔ Reach G' (wet stp) root v := fun v => exists_congr fun k => hwalk k v
  -- one run, for either graph
  have run : ∀ (H : Csr) (gb : ℕ → ℕ), InRange H N → (∀ m, (G.nbrs m).Perm (H.nbrs m)) →
      (∀ v, Reach G (wet stp) root v ↔ Reach H (wet stp) root v) →
      ∃ (r : PSt (Fl α)) (R L : List ℕ), wetPerim H O N root stp gb 1 fuel = some r ∧ R.Nodup ∧
        (∀ v, v ∈ L ↔ Reach G (wet stp) root v) ∧
        (∀ v, v ∈ R ↔ wet stp v = false ∧ ∃ m, Reach G (wet stp) root m ∧ v ∈ G.nbrs m) ∧
        (∀ v, r.stp v = if v ∈ R ∧ wetCond H O (cutP L stp) v = true then wetVal H O (cutP L stp) v else cutP L stp v) ∧
        r.newly = (R.filter (wetCond H O (cutP L stp))).length := by
    intro H gb hH hp hre
    obtain ⟨r, _, hr1, _⟩ := perim_queue H O N root stp hH hr gb 1 fuel hf
    obtain ⟨q, hq, _, _, hmem, _⟩ := bfs_component H N root (wet stp) hH hr fuel hf
    rcases wetPerim_refines (O := O) (stp := stp) hH hr gb 1 fuel with ⟨h1, _⟩ | ⟨a, y, L', h1, h2, A⟩
    · rw [hr1] at h1; exact absurd h1 (by simp)
    unfold wetPerimL at h2
    cases hs : searchL H root (wet stp) fuel with
    | none => rw [hs] at h2; exact absurd h2 (by simp)
    | some x =>
      rw [hs] at h2
      simp only [Option.some.injEq] at h2
      obtain ⟨q', hq', hqx, P⟩ := searchL_bfs (by omega) hs
      rw [hq] at hq'
      obtain rfl := Option.some.inj hq'
      rw [hqx] at hmem
      obtain ⟨_, x', _, hs', A1⟩ : ∃ a' x', searchA H N root (wet stp) gb fuel = some a' ∧
          searchL H root (wet stp) fuel = some x' ∧ Abs N (wet stp) a' x' := by
        rcases searchA_refines (fin0 := wet stp) hH hr gb fuel with ⟨_, h⟩ | h
        · rw [hs] at h; exact absurd h (by simp)
        · exact h
      rw [hs] at hs'
      obtain rfl := Option.some.inj hs'
      have hRmem : ∀ v, v ∈ x.2 ↔ wet stp v = false ∧ ∃ m, Reach G (wet stp) root m ∧ v ∈ G.nbrs m := by
        intro v
        constructor
        · intro hv
          obtain ⟨m, hm, hm'⟩ := P.sound v hv
          exact ⟨(A1.memR v hv).1, m, (hre m).2 ((hmem m).1 hm), (hp m).mem_iff.2 hm'⟩
        · rintro ⟨hw, m, hm, hm'⟩
          obtain ⟨i, hi, e⟩ := List.mem_iff_getElem.1 ((hmem m).2 ((hre m).1 hm))
          exact P.closed i m hi (by rw [List.getElem?_eq_getElem hi, e]) v ((hp m).mem_iff.1 hm') hw
      have hI : ∀ a ∈ x.2, ∀ b ∈ x.2, b ∉ H.nbrs a := by
        intro a ha b hb h
        obtain ⟨a1, m, a2, a3⟩ := (hRmem a).1 ha
        obtain ⟨b1, m', b2, b3⟩ := (hRmem b).1 hb
        exact hind a b m m' a2 a3 a1 b2 b3 b1 ((hp a).mem_iff.2 h)
      obtain ⟨w1, w2⟩ := wetOneL_indep H O (wet stp) (cutP x.1 stp) x.2 hI x.2 ⟨x.2, cutP x.1 stp, 0⟩ A1.ndR
        (fun v h => h) (fun v _ => rfl) (fun v _ => rfl)
      have hy : y.stp = (x.2.foldl (wetOneL H O (wet stp)) ⟨x.2, cutP x.1 stp, 0⟩).stp ∧
          y.newly = (x.2.foldl (wetOneL H O (wet stp)) ⟨x.2, cutP x.1 stp, 0⟩).newly := by
        rw [← h2, wetLoopL]
        split_ifs with hlen
        · rw [wetLoopL, List.drop_zero]; exact ⟨rfl, rfl⟩
        · have : x.2 = [] := by simpa using hlen
          rw [this]; exact ⟨rfl, rfl⟩
      refine ⟨a, x.2, x.1, h1, A1.ndR, fun v => by rw [hmem, hre], hRmem, ?_, ?_⟩
      · intro v
        rw [A.stp, hy.1, w1 v]
      · rw [A.newly, hy.2, w2]; simp
  obtain ⟨r, R, L, e1, n1, l1, m1, s1, c1⟩ := run G g hG (fun _ => List.Perm.refl _) (fun _ => Iff.rfl)
  obtain ⟨r', R', L', e2, n2, l2, m2, s2, c2⟩ := run G' g' hG' hperm hreach
  have hcut : cutP L' stp = cutP L stp := by
    funext v
    have : v ∈ L' ↔ v ∈ L := by rw [l1, l2]
    simp only [cutP, this]
  rw [hcut] at s2 c2
  have hlp : ∀ v, (linkers O (cutP L stp) v (G.nbrs v)).Perm (linkers O (cutP L stp) v (G'.nbrs v)) :=
    fun v => (hperm v).filter _
  have hcond : ∀ v, wetCond G' O (cutP L stp) v = wetCond G O (cutP L stp) v := by
    intro v
    unfold wetCond
    have : linkers O (cutP L stp) v (G'.nbrs v) = [] ↔ linkers O (cutP L stp) v (G.nbrs v) = [] := by
      constructor <;> intro h
      · have := hlp v; rw [h] at this; exact this.eq_nil
      · have := hlp v; rw [h] at this; exact this.symm.eq_nil
    simp only [ne_eq, this]
  have hval : ∀ v, wetVal G' O (cutP L stp) v = wetVal G O (cutP L stp) v := by
    intro v
    have fin' : ∀ n, ∃ z, n ∈ linkers O (cutP L stp) v (G.nbrs v) → O.ntpP (cutP L stp n) v = fin z := by
      intro n
      by_cases hn : n ∈ linkers O (cutP L stp) v (G.nbrs v)
      · have := List.of_mem_filter hn
        simp only [accept, Bool.and_eq_true] at this
        obtain ⟨z, hz⟩ := (isFinite_iff _).1 this.2.1
        exact ⟨z, fun _ => hz⟩
      · exact ⟨0, fun h => absurd h hn⟩
    choose gz hgz using fin'
    have hsum : sumP O (cutP L stp) v (linkers O (cutP L stp) v (G'.nbrs v)) =
        sumP O (cutP L stp) v (linkers O (cutP L stp) v (G.nbrs v)) := by
      unfold sumP
      rw [show (lit 0 : Fl α) = fin 0 by simp]
      rw [foldl_fin (fun n => O.ntpP (cutP L stp n) v) gz _ 0 hgz,
        foldl_fin (fun n => O.ntpP (cutP L stp n) v) gz _ 0 (fun n hn => hgz n ((hlp v).mem_iff.2 hn))]
      rw [((hlp v).map gz).sum_eq]
    unfold wetVal
    simp only [hsum, (hlp v).length_eq]
  have hRR : R.Perm R' := (List.perm_ext_iff_of_nodup n1 n2).2 (fun v => by rw [m1, m2])
  refine ⟨r, r', e1, e2, ?_, ?_⟩
  · funext v
    rw [s1, s2, hcond, hval]
    have : v ∈ R ↔ v ∈ R' := hRR.mem_iff
    simp only [this]
  · rw [c1, c2]
    have : wetCond G' O (cutP L stp) = wetCond G O (cutP L stp) := funext hcond
    rw [this]
    exact (hRR.filter _).length_eq

end exact

/-! ## Witnesses for C30, C31, C32 -/

section witness
open Fl Traj

/-- The triangle 0, 1, 2; `o` is the order in which the neighbours of 0 are listed. -/
def triOrd (o : Bool) : Csr where
  indptr i := 2 * i
  indices i := (if o then [1, 2, 0, 2, 0, 1] else [2, 1, 0, 2, 0, 1]).getD i 0

/-- Cast 1 is long, cast 2 is short, cast 0 holds the surface. -/
def wCasts (n : ℕ) : Cast (Fl ℚ) :=
  if n = 2 then qCast [fin 0, fin 2] [fin 0, fin 0] [fin 0, fin 2]
  else qCast [fin 0, fin 2] [fin 0, fin 0] [fin 0, fin 20]

/-- mixed layers at pressures 5, 15 and 0 -/
def wOcean : Ocean (Fl ℚ) :=
  Ocean.ofCasts 30 (fin (1/100)) (fun s _ _ => s) .linear wCasts
    (fun n => if n = 0 then fin 5 else if n = 1 then fin 0 else fin 15)

def wStp : ℕ → Fl ℚ × Fl ℚ × Fl ℚ := fun n => if n = 0 then (fin 1, fin 0, fin 10) else (Fl.nan, Fl.nan, Fl.nan)

/-- **C30 is violated**: cast 2 is wetted at `p = 1`, inside its own mixed layer `p_ml = 15`. -/
theorem perim_mixed_layer_false :
    ∃ r, wetPerim (triOrd true) wOcean 3 0 wStp (fun _ => 0) 100 4 = some r ∧ r.newly = 2 ∧
      wet wStp 2 = false ∧ wet r.stp 2 = true ∧ lt (wOcean.pml 2) (r.stp 2).2.2 = false := by
  have h : (wetPerim (triOrd true) wOcean 3 0 wStp (fun _ => 0) 100 4).map (fun r =>
      (r.newly, wet wStp 2, wet r.stp 2, lt (wOcean.pml 2) (r.stp 2).2.2)) = some (2, false, true, false) := by decide +kernel
  obtain ⟨r, h1, h2⟩ := Option.map_eq_some_iff.1 h
  simp only [Prod.mk.injEq] at h2
  exact ⟨r, h1, h2.1, h2.2.1, h2.2.2.1, h2.2.2.2⟩

/-- **C31 is violated**: the note says the result does not depend on the order in which neighbours are listed; listing the
neighbours of cast 0 as `1, 2` or as `2, 1` gives 2 and 1 newly wet casts. -/
theorem perim_order_false :
    (∀ m, m < 3 → ((triOrd true).nbrs m).Perm ((triOrd false).nbrs m)) ∧
    (wetPerim (triOrd true) wOcean 3 0 wStp (fun _ => 0) 100 4).map (fun r => (r.newly, wet r.stp 2)) = some (2, true) ∧
    (wetPerim (triOrd false) wOcean 3 0 wStp (fun _ => 0) 100 4).map (fun r => (r.newly, wet r.stp 2)) = some (1, false) := by
  refine ⟨by decide, by decide +kernel, by decide +kernel⟩

/-- **C32 is violated**: with 100 repetitions allowed, cast 2 stays dry although it has data, it is adjacent to the wetted
cast 1, and the neutral link from cast 1 to it succeeds and passes the test of the code. -/
theorem perim_exhaustive_false :
    ∃ r, wetPerim (triOrd false) wOcean 3 0 wStp (fun _ => 0) 100 4 = some r ∧
      wet r.stp 1 = true ∧ 2 ∈ (triOrd false).nbrs 1 ∧ 1 ∈ (triOrd false).nbrs 2 ∧ wet r.stp 2 = false ∧
      wOcean.data 2 = true ∧ accept wOcean 1 (wOcean.ntpP (r.stp 1) 2) = true := by
  have h : (wetPerim (triOrd false) wOcean 3 0 wStp (fun _ => 0) 100 4).map (fun r =>
      (wet r.stp 1, wet r.stp 2, accept wOcean 1 (wOcean.ntpP (r.stp 1) 2))) = some (true, false, true) := by decide +kernel
  obtain ⟨r, h1, h2⟩ := Option.map_eq_some_iff.1 h
  simp only [Prod.mk.injEq] at h2
  exact ⟨r, h1, h2.1, by decide, by decide, h2.2.1, by decide +kernel, h2.2.2⟩

/-- The star with centre 0. -/
def starCsr : Csr where
  indptr i := [0, 2, 3, 4].getD i 4
  indices i := [1, 2, 0, 0].getD i 0

/-- The hypothesis of `perim_order_partial` on the perimeter holds for the star whose centre holds the surface. -/
example : ∀ a b m m', Reach starCsr (wet wStp) 0 m → a ∈ starCsr.nbrs m → wet wStp a = false → Reach starCsr (wet wStp) 0 m' →
    b ∈ starCsr.nbrs m' → wet wStp b = false → b ∉ starCsr.nbrs a := by
  have only : ∀ m, Reach starCsr (wet wStp) 0 m → m = 0 := by
    rintro m ⟨k, w⟩
    have := w.good
    by_contra h
    simp [wet, wStp, h] at this
  rintro a b m m' hm ha had hm' hb hbd
  obtain rfl := only m hm
  obtain rfl := only m' hm'
  have e : starCsr.nbrs 0 = [1, 2] := by decide
  rw [e] at ha hb
  simp only [List.mem_cons, List.not_mem_nil, or_false] at ha hb
  rcases ha with rfl | rfl <;> rcases hb with rfl | rfl <;> decide

/-- The hypotheses of `wetPerim_spec` hold for this ocean. -/
example : InRange (triOrd true) 3 ∧ isFinite (FloatLike.nan : Fl ℚ) = false := ⟨by unfold InRange; decide, rfl⟩

end witness

end Bfs
