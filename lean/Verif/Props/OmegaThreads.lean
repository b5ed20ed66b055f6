import Verif.Props.Threads
set_option linter.unusedSectionVars false

/-!
# Calls of `omega_surf` in threads (C169)
-/

namespace OmegaThread
open FloatLike Omega Threads VertSolve
variable {F : Type*} [FloatLike F]

/-- What `omega_surf` owns at each point of control. -/
def Owned : Ctrl F → (Var → Bool) → Prop
  | .start, O => O .pInit = false
  | .interp _, O => O .p = true
  | .fail _, _ => True
  | _, O => O .s = true ∧ O .t = true ∧ O .p = true

theorem safe_writeStp {O : Var → Bool} (h : O .s = true ∧ O .t = true ∧ O .p = true) (x : Surf F) : SafeL O (writeStp x) ∧ ownL O (writeStp x) = O :=
  ⟨⟨h.1, h.2.1, h.2.2, trivial⟩, rfl⟩

theorem safe_cont {A : Type*} {O : Var → Bool} (r : Res A) {k : A → List (Instr Var F) × Ctrl F} (h : ∀ a, SafeL O (k a).1 ∧ Owned (k a).2 (ownL O (k a).1)) :
    SafeL O (cont r k).1 ∧ Owned (cont r k).2 (ownL O (cont r k).1) := by
  cases r with
  | ok a => exact h a
  | indexError => exact ⟨trivial, trivial⟩
  | runtimeError => exact ⟨trivial, trivial⟩
  | unbound => exact ⟨trivial, trivial⟩
  | noReturn => exact ⟨trivial, trivial⟩

variable (cfg : (ℕ → ℕ → F) → Cfg F) (scalar : Option F)

theorem disciplined : Disciplined (prog cfg scalar) .start Owned := by
  refine ⟨rfl, ?_⟩
  intro c O h v
  cases c with
  | start =>
    cases scalar with
    | some q => exact ⟨⟨trivial, trivial, trivial, rfl, trivial⟩, rfl, rfl, rfl⟩
    | none => exact ⟨⟨h, trivial, trivial⟩, rfl⟩
  | interp q =>
    simp only [prog]
    split_ifs
    · exact ⟨⟨trivial, trivial, trivial⟩, rfl, rfl, h⟩
    · exact ⟨trivial, trivial⟩
  | seed q => exact safe_cont _ fun st => ⟨⟨h.1, h.2.1, trivial⟩, h⟩
  | wet q => exact safe_cont _ fun r => ⟨(safe_writeStp h _).1, h⟩
  | check q =>
    simp only [prog]
    split_ifs
    · exact ⟨trivial, trivial⟩
    · exact ⟨⟨h.2.2, trivial⟩, h⟩
  | first q => exact ⟨trivial, h⟩
  | top k =>
    simp only [prog]
    split_ifs
    · exact ⟨trivial, h⟩
    · exact ⟨⟨h.2.2, trivial⟩, h⟩
    · exact ⟨trivial, h⟩
  | region k =>
    refine safe_cont _ fun r => ?_
    split_ifs
    · exact ⟨(safe_writeStp h _).1, h⟩
    · exact ⟨trivial, h⟩
  | solve k qu newly => exact safe_cont _ fun phi => ⟨⟨trivial, trivial⟩, h⟩
  | save k qu newly => exact ⟨⟨trivial, trivial⟩, h⟩
  | heave k qu newly => exact safe_cont _ fun x => ⟨(safe_writeStp h _).1, h⟩
  | pin k qu newly => exact ⟨⟨h.2.2, trivial⟩, h⟩
  | close k qu newly =>
    simp only [prog]
    split_ifs <;> exact ⟨trivial, h⟩
  | trim k =>
    simp only [prog]
    split_ifs
    · exact ⟨trivial, trivial⟩
    · exact ⟨trivial, h⟩
  | done rms rows last => exact ⟨trivial, h⟩
  | fail e => exact ⟨trivial, trivial⟩

/-! ## A call by itself computes the surface -/

/-- The call has ended with this result. -/
def Final (r : Res (State F)) (w : VThread Var F (Ctrl F)) : Prop :=
  w.todo = [] ∧
  match r with
  | .ok st => w.ctrl = .done st.rms st.rows st.last ∧ surf w.val = st.stp
  | .indexError => w.ctrl = .fail .indexError
  | .runtimeError => w.ctrl = .fail .runtimeError
  | .unbound => w.ctrl = .fail .unbound
  | .noReturn => w.ctrl = .fail .noReturn

theorem Final.stay {r : Res (State F)} {w : VThread Var F (Ctrl F)} (h : Final r w) : w.step (prog cfg scalar) = w := by
  obtain ⟨h1, h2⟩ := h
  obtain ⟨v, l, c⟩ := w
  dsimp only at h1 h2
  subst h1
  cases r <;> (first | (obtain ⟨rfl, _⟩ := h2) | (obtain rfl := h2)) <;> rfl

/-- Ends with this result. -/
def Ends (r : Res (State F)) (w : VThread Var F (Ctrl F)) : Prop := ∃ w', Go (prog cfg scalar) w w' ∧ Final r w'

variable {cfg scalar}

theorem Ends.of_go {r : Res (State F)} {w w' : VThread Var F (Ctrl F)} (h : Go (prog cfg scalar) w w') (h' : Ends cfg scalar r w') : Ends cfg scalar r w := by
  obtain ⟨w'', g, f⟩ := h'
  exact ⟨w'', h.trans g, f⟩

/-- A statement that may raise an exception. -/
theorem ends_cont {A : Type*} {v : Var → ℕ → F} {c : Ctrl F} {r : Res A} {k : A → List (Instr Var F) × Ctrl F} (h : prog cfg scalar c v = cont r k) {K : A → Res (State F)}
    (hK : ∀ a, r = .ok a → Ends cfg scalar (K a) ⟨(k a).1.foldl vexec v, [], (k a).2⟩) : Ends cfg scalar (r.bind K) ⟨v, [], c⟩ := by
  cases r with
  | ok a => exact Ends.of_go (go_of h rfl) (hK a rfl)
  | indexError => exact ⟨_, go_of h rfl, rfl, rfl⟩
  | runtimeError => exact ⟨_, go_of h rfl, rfl, rfl⟩
  | unbound => exact ⟨_, go_of h rfl, rfl, rfl⟩
  | noReturn => exact ⟨_, go_of h rfl, rfl, rfl⟩

theorem surf_writeStp (v : Var → ℕ → F) (x : Surf F) : surf ((writeStp x).foldl vexec v) = x := rfl

theorem given_writeStp (v : Var → ℕ → F) (x : Surf F) : given ((writeStp x).foldl vexec v) = given v := rfl

theorem bind_bind {A B D : Type*} (r : Res A) (f : A → Res B) (g : B → Res D) : (r.bind f).bind g = r.bind fun a => (f a).bind g := by cases r <;> rfl

theorem ok_bind {A B : Type*} (a : A) (f : A → Res B) : (Res.ok a).bind f = f a := rfl

/-- The end of `omega_surf`. -/
def fin (c : Cfg F) (s : State F) : Res (State F) := if c.diags && decide (s.last = 0) then .unbound else .ok s

variable {ins : ℕ → ℕ → F}

theorem ends_trim (v : Var → ℕ → F) (hv : given v = ins) (k : K F) (s : State F) (hs : s = ⟨surf v, k.rms, k.rows, k.last⟩) :
    Ends cfg scalar (fin (cfg ins) s) ⟨v, [], .trim k⟩ := by
  subst hs
  unfold fin
  dsimp only
  have hp : prog cfg scalar (.trim k) v = if (cfg (given v)).diags && decide (k.last = 0) then ([], .fail .unbound) else ([], .done k.rms k.rows k.last) := rfl
  rw [hv] at hp
  split_ifs at hp ⊢
  · exact ⟨_, go_of hp rfl, rfl, rfl⟩
  · exact ⟨_, go_of hp rfl, rfl, rfl, rfl⟩

theorem ends_loop (pinP : F) : ∀ (left iter : ℕ) (v : Var → ℕ → F), given v = ins → ∀ (rms : F) (rows : List (Diag F)) (last : ℕ),
    Ends cfg scalar ((loop (cfg ins) pinP left iter ⟨surf v, rms, rows, last⟩).bind (fin (cfg ins))) ⟨v, [], .top ⟨pinP, left, iter, rms, rows, last⟩⟩
  | 0, iter, v, hv, rms, rows, last => by
    refine Ends.of_go (go_of (l := []) (c' := .trim ⟨pinP, 0, iter, rms, rows, last⟩) rfl rfl) ?_
    exact ends_trim v hv _ _ rfl
  | left + 1, iter, v, hv, rms, rows, last => by
    -- the mixed layer
    obtain ⟨v1, g1, hv1, hs1⟩ : ∃ v1, Go (prog cfg scalar) ⟨v, [], .top ⟨pinP, left + 1, iter, rms, rows, last⟩⟩ ⟨v1, [], .region ⟨pinP, left + 1, iter, rms, rows, last⟩⟩ ∧
        given v1 = ins ∧ surf v1 = removeML (cfg ins) iter (surf v) := by
      have hp : prog cfg scalar (.top ⟨pinP, left + 1, iter, rms, rows, last⟩) v =
          (if 1 < iter then [.write .p fun n => (removeML (cfg (given v)) iter (surf v) n).2.2] else [], .region ⟨pinP, left + 1, iter, rms, rows, last⟩) := rfl
      rw [hv] at hp
      by_cases hi : 1 < iter
      · rw [if_pos hi] at hp
        refine ⟨_, go_of hp rfl, hv, ?_⟩
        funext n
        show (v .s n, v .t n, (removeML (cfg ins) iter (surf v) n).2.2) = _
        unfold removeML
        simp only [if_pos hi]
        show (v .s n, v .t n, (if lt (v .p n) ((cfg ins).pml n) then (v .s n, v .t n, nan) else (v .s n, v .t n, v .p n)).2.2) = if lt (v .p n) ((cfg ins).pml n) then (v .s n, v .t n, nan) else (v .s n, v .t n, v .p n)
        split_ifs <;> rfl
      · rw [if_neg hi] at hp
        refine ⟨v, go_of hp rfl, hv, ?_⟩
        unfold removeML
        rw [if_neg hi]
    refine Ends.of_go g1 ?_
    have hL : (loop (cfg ins) pinP (left + 1) iter ⟨surf v, rms, rows, last⟩).bind (fin (cfg ins)) =
        (Omega.region (cfg ins) iter (surf v1)).bind fun r =>
          (ofMat ((cfg ins).solver (fun n => (r.1 n).1) (fun n => (r.1 n).2.1) (fun n => (r.1 n).2.2) r.2.1 (cfg ins).pin)).bind fun phi =>
            (ofOutcome (vertsolveOmega (cfg ins).fuel (cfg ins).tol (cfg ins).kind (cfg ins).eos phi (cfg ins).casts r.1 (cfg ins).N)).bind fun stp' =>
              (fun r : Iter F => (if converged (cfg ins) iter r (dpRMS (cfg ins) rms r) then Res.ok (after (cfg ins) iter ⟨surf v, rms, rows, last⟩ r)
                else loop (cfg ins) pinP left (iter + 1) (after (cfg ins) iter ⟨surf v, rms, rows, last⟩ r)).bind (fin (cfg ins)))
              ⟨r.1, Function.update stp' (cfg ins).pin ((stp' (cfg ins).pin).1, (stp' (cfg ins).pin).2.1, pinP), r.2.1, phi, r.2.2⟩ := by
      rw [loop, step, hs1]
      simp only [bind_bind, ok_bind]
    rw [hL]
    -- the region
    refine ends_cont (k := fun r => (if (cfg ins).startWet ≤ iter ∧ iter ≤ (cfg ins).stopWet then writeStp r.1 else [], .solve ⟨pinP, left + 1, iter, rms, rows, last⟩ r.2.1 r.2.2))
      (by rw [← hv1]; rfl) ?_
    intro r hr
    obtain ⟨x, qu, newly⟩ := r
    obtain ⟨v2, e2, hv2, hs2⟩ : ∃ v2, (if (cfg ins).startWet ≤ iter ∧ iter ≤ (cfg ins).stopWet then writeStp x else []).foldl vexec v1 = v2 ∧ given v2 = ins ∧ surf v2 = x := by
      by_cases hw : (cfg ins).startWet ≤ iter ∧ iter ≤ (cfg ins).stopWet
      · rw [if_pos hw]; exact ⟨_, rfl, hv1, rfl⟩
      · rw [if_neg hw]
        refine ⟨v1, rfl, hv1, ?_⟩
        unfold Omega.region at hr
        rw [if_neg hw] at hr
        cases hb : ofOption (Bfs.bfs (cfg ins).G (cfg ins).pin (fun n => isFinite (surf v1 n).2.2) (cfg ins).fuel) with
        | ok q =>
          rw [hb] at hr
          simp only [Res.bind, Res.ok.injEq, Prod.mk.injEq] at hr
          exact hr.1
        | indexError => rw [hb] at hr; exact absurd hr (by simp [Res.bind])
        | runtimeError => rw [hb] at hr; exact absurd hr (by simp [Res.bind])
        | unbound => rw [hb] at hr; exact absurd hr (by simp [Res.bind])
        | noReturn => rw [hb] at hr; exact absurd hr (by simp [Res.bind])
    dsimp only
    rw [e2]
    -- the matrix problem
    refine ends_cont (k := fun phi => ([.new .phi phi], .save ⟨pinP, left + 1, iter, rms, rows, last⟩ qu newly)) (by rw [← hs2, ← hv2]; rfl) ?_
    intro phi _
    -- the old surface
    refine Ends.of_go (go_of (l := [.new .pOld (v2 .p)]) (c' := .heave ⟨pinP, left + 1, iter, rms, rows, last⟩ qu newly) rfl rfl) ?_
    -- the vertical solve
    refine ends_cont (k := fun x => (writeStp x, .pin ⟨pinP, left + 1, iter, rms, rows, last⟩ qu newly)) (by rw [← hs2, ← hv2]; rfl) ?_
    intro y _
    -- the pin
    subst hs2
    obtain ⟨v3, g3, hv3, hs3, ho3, hf3⟩ : ∃ v3, Go (prog cfg scalar) ⟨(writeStp y).foldl vexec (vexec (vexec v2 (.new .phi phi)) (.new .pOld (v2 .p))), [],
        .pin ⟨pinP, left + 1, iter, rms, rows, last⟩ qu newly⟩ ⟨v3, [], .close ⟨pinP, left + 1, iter, rms, rows, last⟩ qu newly⟩ ∧ given v3 = ins ∧
        surf v3 = Function.update y (cfg ins).pin ((y (cfg ins).pin).1, (y (cfg ins).pin).2.1, pinP) ∧ v3 .pOld = v2 .p ∧ v3 .phi = phi := by
      refine ⟨_, go_of rfl rfl, hv2, ?_, rfl, rfl⟩
      funext n
      rw [← hv2]
      show ((y n).1, (y n).2.1, Function.update (fun n => (y n).2.2) (cfg (given v2)).pin pinP n) = _
      by_cases hn : n = (cfg (given v2)).pin
      · subst hn; rw [Function.update_self, Function.update_self]
      · rw [Function.update_of_ne hn, Function.update_of_ne hn]
    refine Ends.of_go g3 ?_
    rw [← hs3]
    -- the test
    have hp : prog cfg scalar (.close ⟨pinP, left + 1, iter, rms, rows, last⟩ qu newly) v3 =
        if converged (cfg (given v3)) iter ⟨fun n => (nan, nan, v3 .pOld n), surf v3, qu, v3 .phi, newly⟩
            (dpRMS (cfg (given v3)) rms ⟨fun n => (nan, nan, v3 .pOld n), surf v3, qu, v3 .phi, newly⟩) then
          ([], .trim ⟨pinP, 0, iter, dpRMS (cfg (given v3)) rms ⟨fun n => (nan, nan, v3 .pOld n), surf v3, qu, v3 .phi, newly⟩,
            if (cfg (given v3)).diags then rows ++ [diagOf (cfg (given v3)) (dpRMS (cfg (given v3)) rms ⟨fun n => (nan, nan, v3 .pOld n), surf v3, qu, v3 .phi, newly⟩)
              ⟨fun n => (nan, nan, v3 .pOld n), surf v3, qu, v3 .phi, newly⟩] else rows, iter⟩)
        else
          ([], .top ⟨pinP, left, iter + 1, dpRMS (cfg (given v3)) rms ⟨fun n => (nan, nan, v3 .pOld n), surf v3, qu, v3 .phi, newly⟩,
            if (cfg (given v3)).diags then rows ++ [diagOf (cfg (given v3)) (dpRMS (cfg (given v3)) rms ⟨fun n => (nan, nan, v3 .pOld n), surf v3, qu, v3 .phi, newly⟩)
              ⟨fun n => (nan, nan, v3 .pOld n), surf v3, qu, v3 .phi, newly⟩] else rows, iter⟩) := rfl
    rw [hv3, ho3, hf3] at hp
    have a1 : dpRMS (cfg ins) rms ⟨fun n => (nan, nan, v2 .p n), surf v3, qu, phi, newly⟩ = dpRMS (cfg ins) rms ⟨surf v2, surf v3, qu, phi, newly⟩ := rfl
    have a2 : ∀ x, diagOf (cfg ins) x ⟨fun n => (nan, nan, v2 .p n), surf v3, qu, phi, newly⟩ = diagOf (cfg ins) x ⟨surf v2, surf v3, qu, phi, newly⟩ := fun _ => rfl
    have a3 : ∀ x, converged (cfg ins) iter ⟨fun n => (nan, nan, v2 .p n), surf v3, qu, phi, newly⟩ x = converged (cfg ins) iter ⟨surf v2, surf v3, qu, phi, newly⟩ x := fun _ => rfl
    rw [a1, a2, a3] at hp
    unfold after
    dsimp only
    by_cases hc : converged (cfg ins) iter ⟨surf v2, surf v3, qu, phi, newly⟩ (dpRMS (cfg ins) rms ⟨surf v2, surf v3, qu, phi, newly⟩) = true
    · rw [if_pos hc] at hp ⊢
      exact Ends.of_go (go_of hp rfl) (ends_trim v3 hv3 _ _ rfl)
    · rw [if_neg hc] at hp ⊢
      exact Ends.of_go (go_of hp rfl) (ends_loop pinP left (iter + 1) v3 hv3 _ _ _)

/-- The argument `p_init`: a scalar, or the array named by the variable. -/
def pInitOf (scalar : Option F) (v : Var → ℕ → F) : PInit F :=
  match scalar with
  | some q => .scalar q
  | none => .array (v .pInit)

theorem ends_check (q : F) (v : Var → ℕ → F) (hv : given v = ins) :
    Ends cfg scalar ((if isNaN (surf v (cfg ins).pin).1 then Res.runtimeError else Res.ok fun n => if isNaN (surf v n).1 then ((surf v n).1, (surf v n).2.1, nan) else surf v n).bind
      fun stp => (loop (cfg ins) q (cfg ins).iterMax 1 ⟨stp, lit 0, if (cfg ins).diags then [diag0 (cfg ins) stp] else [], 0⟩).bind (fin (cfg ins))) ⟨v, [], .check q⟩ := by
  have hp : prog cfg scalar (.check q) v = if isNaN (v .s (cfg (given v)).pin) then ([], .fail .runtimeError)
    else ([.write .p fun n => if isNaN (v .s n) then nan else v .p n], .first q) := rfl
  rw [hv] at hp
  have e : (surf v (cfg ins).pin).1 = v .s (cfg ins).pin := rfl
  rw [e]
  by_cases hn : isNaN (v .s (cfg ins).pin) = true
  · rw [if_pos hn] at hp ⊢
    exact ⟨_, go_of hp rfl, rfl, rfl⟩
  · rw [if_neg hn] at hp ⊢
    refine Ends.of_go (go_of hp rfl) ?_
    obtain ⟨v1, e1, hv1, hs1⟩ : ∃ v1, [Instr.write Var.p fun n => if isNaN (v .s n) then nan else v .p n].foldl vexec v = v1 ∧ given v1 = ins ∧
        surf v1 = fun n => if isNaN (surf v n).1 then ((surf v n).1, (surf v n).2.1, nan) else surf v n := by
      refine ⟨_, rfl, hv, ?_⟩
      funext n
      show (v .s n, v .t n, if isNaN (v .s n) then nan else v .p n) = if isNaN (v .s n) then (v .s n, v .t n, nan) else (v .s n, v .t n, v .p n)
      split_ifs <;> rfl
    rw [e1, ← hs1]
    refine Ends.of_go (go_of (l := []) (c' := .top ⟨q, (cfg ins).iterMax, 1, lit 0, if (cfg ins).diags then [diag0 (cfg ins) (surf v1)] else [], 0⟩) (by rw [← hv1]; rfl) rfl) ?_
    exact ends_loop q _ _ v1 hv1 _ _ _

/-- A call of `omega_surf` by itself ends with the surface, diagnostics or exception of the model of the other properties. -/
theorem ends_omega (v : Var → ℕ → F) : Ends cfg scalar (omega (cfg (given v)) (pInitOf scalar v)) ⟨v, [], .start⟩ := by
  obtain ⟨ins, hv⟩ : ∃ ins, given v = ins := ⟨_, rfl⟩
  rw [hv]
  have ho : omega (cfg ins) (pInitOf scalar v) = (initRaw (cfg ins) (pInitOf scalar v)).bind fun x =>
      (if isNaN (x (cfg ins).pin).1 then Res.runtimeError else Res.ok fun n => if isNaN (x n).1 then ((x n).1, (x n).2.1, nan) else x n).bind
      fun stp => (loop (cfg ins) (pinPOf (cfg ins) (pInitOf scalar v)) (cfg ins).iterMax 1 ⟨stp, lit 0, if (cfg ins).diags then [diag0 (cfg ins) stp] else [], 0⟩).bind (fin (cfg ins)) := by
    unfold omega init
    cases initRaw (cfg ins) (pInitOf scalar v) <;> rfl
  rw [ho]
  cases scalar with
  | some q =>
    show Ends cfg (some q) ((Res.bind (ofOption (interpTwo (cfg ins) q (cfg ins).pin)) fun st =>
      (wetting (cfg ins) (Function.update (fun _ => (nan, nan, nan)) (cfg ins).pin (st.1, st.2, q))).bind fun r => .ok r.1).bind _) _
    simp only [bind_bind, ok_bind]
    refine Ends.of_go (go_of (l := [.new .p fun _ => nan, .new .s fun _ => nan, .new .t fun _ => nan, .write .p (Function.update (fun _ => nan) (cfg ins).pin q)]) (c' := .seed q)
      (by rw [← hv]; rfl) rfl) ?_
    refine ends_cont (k := fun st => ([.write .s (Function.update (fun _ => nan) (cfg ins).pin st.1), .write .t (Function.update (fun _ => nan) (cfg ins).pin st.2)], .wet q))
      (by rw [← hv]; rfl) ?_
    intro st _
    obtain ⟨v1, e1, hv1, hs1⟩ : ∃ v1, [Instr.write Var.s (Function.update (fun _ => nan) (cfg ins).pin st.1), .write .t (Function.update (fun _ => nan) (cfg ins).pin st.2)].foldl vexec
        ([.new .p fun _ => nan, .new .s fun _ => nan, .new .t fun _ => nan, .write .p (Function.update (fun _ => (nan : F)) (cfg ins).pin q)].foldl vexec v) = v1 ∧ given v1 = ins ∧
        surf v1 = Function.update (fun _ => (nan, nan, nan)) (cfg ins).pin (st.1, st.2, q) := by
      refine ⟨_, rfl, hv, ?_⟩
      funext n
      show (Function.update (fun _ => (nan : F)) (cfg ins).pin st.1 n, Function.update (fun _ => (nan : F)) (cfg ins).pin st.2 n, Function.update (fun _ => (nan : F)) (cfg ins).pin q n) = _
      by_cases hn : n = (cfg ins).pin
      · subst hn; simp only [Function.update_self]
      · simp only [Function.update_of_ne hn]
    dsimp only
    rw [e1]
    refine ends_cont (k := fun r => (writeStp r.1, .check q)) (by rw [← hs1, ← hv1]; rfl) ?_
    intro r _
    exact ends_check q ((writeStp r.1).foldl vexec v1) hv1
  | none =>
    obtain ⟨v1, g1, hv1, hs1⟩ : ∃ v1, Go (prog cfg none) ⟨v, [], .start⟩ ⟨v1, [], .interp (v .pInit (cfg ins).pin)⟩ ∧ given v1 = ins ∧
        v1 .p = fun n => if n < (cfg ins).N then v .pInit n else nan := by
      refine ⟨_, go_of (c := Ctrl.start) (l := [Instr.name Var.pFlat Var.pInit, .new .p fun n => if n < (cfg ins).N then v .pInit n else nan]) (by rw [← hv]; rfl) rfl, hv, rfl⟩
    refine Ends.of_go g1 ?_
    have hp : prog cfg none (.interp (v .pInit (cfg ins).pin)) v1 =
        if ∀ n < (cfg (given v1)).N, (interpTwo (cfg (given v1)) (v1 .p n) n).isSome then
          ([.new .s fun n => if n < (cfg (given v1)).N then ((interpTwo (cfg (given v1)) (v1 .p n) n).getD (nan, nan)).1 else nan,
            .new .t fun n => if n < (cfg (given v1)).N then ((interpTwo (cfg (given v1)) (v1 .p n) n).getD (nan, nan)).2 else nan], .check (v .pInit (cfg ins).pin))
        else ([], .fail .noReturn) := rfl
    rw [hv1] at hp
    have hq : ∀ n, n < (cfg ins).N → v1 .p n = v .pInit n := fun n hn => by rw [hs1]; exact if_pos hn
    have hc : (∀ n < (cfg ins).N, (interpTwo (cfg ins) (v1 .p n) n).isSome) ↔ ∀ n < (cfg ins).N, (interpTwo (cfg ins) (v .pInit n) n).isSome := by
      constructor
      · intro h n hn; rw [← hq n hn]; exact h n hn
      · intro h n hn; rw [hq n hn]; exact h n hn
    show Ends cfg none (Res.bind (if ∀ n < (cfg ins).N, (interpTwo (cfg ins) (v .pInit n) n).isSome then
      .ok fun n => if n < (cfg ins).N then ((((interpTwo (cfg ins) (v .pInit n) n).getD (nan, nan)).1), ((interpTwo (cfg ins) (v .pInit n) n).getD (nan, nan)).2, v .pInit n)
        else (nan, nan, nan) else .noReturn) _) _
    by_cases hall : ∀ n < (cfg ins).N, (interpTwo (cfg ins) (v .pInit n) n).isSome
    · rw [if_pos (hc.2 hall)] at hp
      rw [if_pos hall, ok_bind]
      refine Ends.of_go (go_of hp rfl) ?_
      obtain ⟨v2, e2, hv2, hs2⟩ : ∃ v2, [Instr.new Var.s fun n => if n < (cfg ins).N then ((interpTwo (cfg ins) (v1 .p n) n).getD (nan, nan)).1 else nan,
            .new .t fun n => if n < (cfg ins).N then ((interpTwo (cfg ins) (v1 .p n) n).getD (nan, nan)).2 else nan].foldl vexec v1 = v2 ∧ given v2 = ins ∧
          surf v2 = fun n => if n < (cfg ins).N then ((((interpTwo (cfg ins) (v .pInit n) n).getD (nan, nan)).1), ((interpTwo (cfg ins) (v .pInit n) n).getD (nan, nan)).2, v .pInit n)
            else (nan, nan, nan) := by
        refine ⟨_, rfl, hv1, ?_⟩
        funext n
        show ((if n < (cfg ins).N then ((interpTwo (cfg ins) (v1 .p n) n).getD (nan, nan)).1 else nan),
          (if n < (cfg ins).N then ((interpTwo (cfg ins) (v1 .p n) n).getD (nan, nan)).2 else nan), v1 .p n) = _
        by_cases hn : n < (cfg ins).N
        · rw [if_pos hn, if_pos hn, if_pos hn, hq n hn]
        · rw [if_neg hn, if_neg hn, if_neg hn, hs1]
          simp only [if_neg hn]
      rw [e2, ← hs2]
      exact ends_check (v .pInit (cfg ins).pin) v2 hv2
    · rw [if_neg (fun h => hall (hc.1 h))] at hp
      rw [if_neg hall]
      exact ⟨_, go_of hp rfl, rfl, rfl⟩

end OmegaThread

namespace IsoThread
open FloatLike Threads VertSolve Traj OmegaThread
variable {F : Type*} [FloatLike F]

/-- What `_isopycnal` owns at each point of control. -/
def Owned : Ctrl F → (Var → Bool) → Prop
  | .pin _ _, O => O .s = true ∧ O .t = true ∧ O .p = true
  | .done _ _, O => O .s = true ∧ O .t = true ∧ O .p = true
  | _, _ => True

theorem safe_cont {A : Type*} {O : Var → Bool} (r : Isopycnal.Res A) {k : A → List (Instr Var F) × Ctrl F} (h : ∀ a, SafeL O (k a).1 ∧ Owned (k a).2 (ownL O (k a).1)) :
    SafeL O (cont r k).1 ∧ Owned (cont r k).2 (ownL O (cont r k).1) := by
  cases r with
  | ok a => exact h a
  | typeError => exact ⟨trivial, trivial⟩
  | valueError => exact ⟨trivial, trivial⟩
  | typingError => exact ⟨trivial, trivial⟩
  | noReturn => exact ⟨trivial, trivial⟩

theorem disciplined (a : Args F) : Disciplined (prog a) .start Owned := by
  refine ⟨trivial, ?_⟩
  intro c O h v
  cases c with
  | start => exact safe_cont _ fun _ => ⟨trivial, trivial⟩
  | solve ref iso => exact safe_cont _ fun _ => ⟨⟨trivial, trivial, trivial, trivial⟩, rfl, rfl, rfl⟩
  | pin ref iso =>
    simp only [prog]
    split
    · split
      · exact safe_cont _ fun _ => ⟨⟨h.2.2, h.1, h.2.1, trivial⟩, h⟩
      · exact ⟨trivial, trivial⟩
    · exact ⟨trivial, h⟩
  | done ref iso => exact ⟨trivial, h⟩
  | fail e => exact ⟨trivial, trivial⟩

/-- The result of a call. -/
abbrev Out (F : Type*) := Isopycnal.Res ((ℕ → F × F × F) × Isopycnal.RefArg F × F)

/-- The call has ended with this result. -/
def Final (r : Out F) (w : VThread Var F (Ctrl F)) : Prop :=
  w.todo = [] ∧
  match r with
  | .ok x => w.ctrl = .done x.2.1 x.2.2 ∧ surf w.val = x.1
  | .typeError => w.ctrl = .fail .typeError
  | .valueError => w.ctrl = .fail .valueError
  | .typingError => w.ctrl = .fail .typingError
  | .noReturn => w.ctrl = .fail .noReturn

variable {a : Args F}

theorem Final.stay {r : Out F} {w : VThread Var F (Ctrl F)} (h : Final r w) : w.step (prog a) = w := by
  obtain ⟨h1, h2⟩ := h
  obtain ⟨v, l, c⟩ := w
  dsimp only at h1 h2
  subst h1
  cases r <;> (first | (obtain ⟨rfl, _⟩ := h2) | (obtain rfl := h2)) <;> rfl

theorem ends_cont {A : Type*} {v : Var → ℕ → F} {c : Ctrl F} {r : Isopycnal.Res A} {k : A → List (Instr Var F) × Ctrl F} (h : prog a c v = cont r k) {K : A → Out F}
    (hK : ∀ x, r = .ok x → ∃ w, Go (prog a) ⟨(k x).1.foldl vexec v, [], (k x).2⟩ w ∧ Final (K x) w) : ∃ w, Go (prog a) ⟨v, [], c⟩ w ∧ Final (r.bind K) w := by
  cases r with
  | ok x =>
    obtain ⟨w, g, f⟩ := hK x rfl
    exact ⟨w, (go_of h rfl).trans g, f⟩
  | typeError => exact ⟨_, go_of h rfl, rfl, rfl⟩
  | valueError => exact ⟨_, go_of h rfl, rfl, rfl⟩
  | typingError => exact ⟨_, go_of h rfl, rfl, rfl⟩
  | noReturn => exact ⟨_, go_of h rfl, rfl, rfl⟩

theorem bind_bind {A B D : Type*} (r : Isopycnal.Res A) (f : A → Isopycnal.Res B) (g : B → Isopycnal.Res D) :
    (r.bind f).bind g = r.bind fun a => (f a).bind g := by cases r <;> rfl

/-- A call of `potential_surf` or `anomaly_surf` by itself ends with the surface or exception of the model of the other properties. -/
theorem ends_isopycnal (v : Var → ℕ → F) : ∃ w, Go (prog a) ⟨v, [], .start⟩ w ∧
    Final (Isopycnal.isopycnal a.fuel a.tol a.kind a.eos a.ty a.ref a.iso a.pinCast a.pinP (a.casts (given v)) a.N) w := by
  unfold Isopycnal.isopycnal
  dsimp only
  rw [← bind_bind]
  refine ends_cont (k := fun ri => ([], .solve ri.1 ri.2)) rfl ?_
  intro ri _
  refine ends_cont (k := fun x => ([.new .s fun n => (x n).1, .new .t fun n => (x n).2.1, .new .p fun n => (x n).2.2], .pin ri.1 ri.2)) rfl ?_
  intro x _
  dsimp only
  obtain ⟨v1, e1, hv1, hs1⟩ : ∃ v1, [Instr.new Var.s fun n => (x n).1, .new .t fun n => (x n).2.1, .new .p fun n => (x n).2.2].foldl vexec v = v1 ∧ given v1 = given v ∧
      surf v1 = x := ⟨_, rfl, rfl, rfl⟩
  dsimp only [List.foldl_nil]
  rw [e1]
  have hp : prog a (.pin ri.1 ri.2) v1 = match a.pinP with
    | .float q =>
      match a.pinCast.bind (Lib.npIdx a.N) with
      | some n =>
        cont (Isopycnal.pinST a.kind (a.casts (given v1) n) q) fun st =>
          ([.write .p (Function.update (v1 .p) n q), .write .s (Function.update (v1 .s) n st.1), .write .t (Function.update (v1 .t) n st.2)], .done ri.1 ri.2)
      | none => ([], .fail .typingError)
    | _ => ([], .done ri.1 ri.2) := rfl
  rw [hv1] at hp
  cases hq : a.pinP with
  | float q =>
    rw [hq] at hp
    dsimp only at hp ⊢
    cases hn : a.pinCast.bind (Lib.npIdx a.N) with
    | some n =>
      rw [hn] at hp
      dsimp only at hp ⊢
      refine ends_cont hp ?_
      intro st _
      refine ⟨_, Go.refl _, rfl, rfl, ?_⟩
      funext m
      show (Function.update (v1 .s) n st.1 m, Function.update (v1 .t) n st.2 m, Function.update (v1 .p) n q m) = _
      rw [← hs1]
      by_cases hm : m = n
      · subst hm; simp only [Function.update_self]
      · simp only [Function.update_of_ne hm]; rfl
    | none =>
      rw [hn] at hp
      exact ⟨_, go_of hp rfl, rfl, rfl⟩
  | none => rw [hq] at hp; exact ⟨_, go_of hp rfl, rfl, rfl, hs1⟩
  | other => rw [hq] at hp; exact ⟨_, go_of hp rfl, rfl, rfl, hs1⟩

end IsoThread

namespace TrajThread
open FloatLike Threads Fzero Traj OmegaThread
variable {F : Type*} [FloatLike F]

/-- What `neutral_trajectory` owns at each point of control. -/
def Owned : Ctrl F → (Var → Bool) → Prop
  | .start, _ => True
  | .fail _, _ => True
  | _, O => O .s = true ∧ O .t = true ∧ O .p = true

theorem disciplined (a : Args F) : Disciplined (prog a) .start Owned := by
  refine ⟨trivial, ?_⟩
  intro c O h v
  cases c with
  | start => exact ⟨⟨trivial, trivial, trivial, trivial⟩, rfl, rfl, rfl⟩
  | body c =>
    simp only [prog]
    split
    · generalize (if c = 0 then trajStart a.kind a.p0 (a.casts (given v) c)
        else ntpBottleToCast a.fuel a.tol a.eos a.kind (v .s (c - 1)) (v .t (c - 1)) (v .p (c - 1)) (a.casts (given v) c)) = r
      cases r with
      | ret b => exact ⟨⟨h.1, h.2.1, h.2.2, trivial⟩, h⟩
      | zeroDiv => exact ⟨trivial, trivial⟩
      | unbound => exact ⟨trivial, trivial⟩
      | oob => exact ⟨trivial, trivial⟩
      | outOfFuel => exact ⟨trivial, trivial⟩
    · exact ⟨trivial, h⟩
  | test c =>
    simp only [prog]
    split
    · exact ⟨trivial, h⟩
    · exact ⟨trivial, h⟩
  | done => exact ⟨trivial, h⟩
  | fail e => exact ⟨trivial, trivial⟩

/-- The call has ended with this result. -/
def Final (r : Outcome (ℕ → F × F × F)) (w : VThread Var F (Ctrl F)) : Prop :=
  w.todo = [] ∧
  match r with
  | .ret x => w.ctrl = .done ∧ surf w.val = x
  | .zeroDiv => w.ctrl = .fail .zeroDiv
  | .unbound => w.ctrl = .fail .unbound
  | .oob => w.ctrl = .fail .oob
  | .outOfFuel => w.ctrl = .fail .outOfFuel

variable {a : Args F}

theorem Final.stay {r : Outcome (ℕ → F × F × F)} {w : VThread Var F (Ctrl F)} (h : Final r w) : w.step (prog a) = w := by
  obtain ⟨h1, h2⟩ := h
  obtain ⟨v, l, c⟩ := w
  dsimp only at h1 h2
  subst h1
  cases r <;> (first | (obtain ⟨rfl, _⟩ := h2) | (obtain rfl := h2)) <;> rfl

theorem ends_cont {A : Type*} {v : Var → ℕ → F} {c : Ctrl F} {r : Outcome A} {k : A → List (Instr Var F) × Ctrl F} (h : prog a c v = cont r k)
    {K : A → Outcome (ℕ → F × F × F)} (hK : ∀ x, r = .ret x → ∃ w, Go (prog a) ⟨(k x).1.foldl vexec v, [], (k x).2⟩ w ∧ Final (K x) w) :
    ∃ w, Go (prog a) ⟨v, [], c⟩ w ∧ Final (r.bind K) w := by
  cases r with
  | ret x =>
    obtain ⟨w, g, f⟩ := hK x rfl
    exact ⟨w, (go_of h rfl).trans g, f⟩
  | zeroDiv => exact ⟨_, go_of h rfl, rfl, rfl⟩
  | unbound => exact ⟨_, go_of h rfl, rfl, rfl⟩
  | oob => exact ⟨_, go_of h rfl, rfl, rfl⟩
  | outOfFuel => exact ⟨_, go_of h rfl, rfl, rfl⟩

theorem bind_bind {A B D : Type*} (r : Outcome A) (f : A → Outcome B) (g : B → Outcome D) : (r.bind f).bind g = r.bind fun a => (f a).bind g := by cases r <;> rfl

/-- The arrays of the result when the first `m` of them are as in `x`, and the rest is this list and then NaN. -/
def upto (x : ℕ → F × F × F) (m : ℕ) (l : List (F × F × F)) (n : ℕ) : F × F × F := if n < m then x n else l.getD (n - m) (nan, nan, nan)

theorem upto_cons (x : ℕ → F × F × F) (m : ℕ) (b : F × F × F) (l : List (F × F × F)) : upto x m (b :: l) = upto (Function.update x m b) (m + 1) l := by
  funext n
  unfold upto
  rcases Nat.lt_trichotomy n m with h | rfl | h
  · rw [if_pos h, if_pos (by omega), Function.update_of_ne (by omega)]
  · rw [if_neg (by omega), if_pos (by omega), Function.update_self, Nat.sub_self]; rfl
  · rw [if_neg (by omega), if_neg (by omega), show n - m = (n - (m + 1)) + 1 from by omega]; rfl

theorem upto_nan (x : ℕ → F × F × F) (m : ℕ) {A : Type*} (cs : List A) (h : ∀ n, m ≤ n → x n = (nan, nan, nan)) : upto x m (cs.map fun _ => (nan, nan, nan)) = x := by
  funext n
  unfold upto
  split
  · rfl
  · rw [h n (by omega)]
    generalize n - m = i
    induction cs generalizing i with
    | nil => rfl
    | cons c cs ih => cases i with
      | zero => rfl
      | succ i => exact ih i

theorem update_nan {x : ℕ → F × F × F} {m : ℕ} (b : F × F × F) (h : ∀ n, m ≤ n → x n = (nan, nan, nan)) (n : ℕ) (hn : m + 1 ≤ n) :
    Function.update x m b n = (nan, nan, nan) := by
  rw [Function.update_of_ne (by omega)]; exact h n (by omega)

/-- The values after the bottle `b` has been written at place `c`. -/
def put (v : Var → ℕ → F) (c : ℕ) (b : F × F × F) : Var → ℕ → F :=
  [Instr.write Var.s (Function.update (v .s) c b.1), .write .t (Function.update (v .t) c b.2.1), .write .p (Function.update (v .p) c b.2.2)].foldl vexec v

theorem given_put (v : Var → ℕ → F) (c : ℕ) (b : F × F × F) : given (put v c b) = given v := rfl

theorem surf_put (v : Var → ℕ → F) (c : ℕ) (b : F × F × F) : surf (put v c b) = Function.update (surf v) c b := by
  funext n
  show (Function.update (v .s) c b.1 n, Function.update (v .t) c b.2.1 n, Function.update (v .p) c b.2.2 n) = _
  by_cases h : n = c
  · subst h; simp only [Function.update_self]
  · simp only [Function.update_of_ne h]; rfl

/-- After a bottle: stop at NaN, or go on. -/
theorem ends_test {c : ℕ} {b : F × F × F} {v : Var → ℕ → F} {A : Type*} (cs : List A) {K : Outcome (List (F × F × F))} (hx : ∀ n, c ≤ n → surf v n = (nan, nan, nan))
    (hK : ∃ w, Go (prog a) ⟨put v c b, [], .body (c + 1)⟩ w ∧ Final (K.bind fun r => .ret (upto (surf (put v c b)) (c + 1) r)) w) :
    ∃ w, Go (prog a) ⟨put v c b, [], .test c⟩ w ∧
      Final (((if isNaN b.2.2 then .ret (b :: cs.map fun _ => (nan, nan, nan)) else K.bind fun r => .ret (b :: r)) : Outcome _).bind fun r => .ret (upto (surf v) c r)) w := by
  have hp : prog a (.test c) (put v c b) = if isNaN b.2.2 then ([], .done) else ([], .body (c + 1)) := by
    show (if isNaN (Function.update (v .p) c b.2.2 c) then _ else _) = _
    rw [Function.update_self]
  by_cases hn : isNaN b.2.2 = true
  · rw [if_pos hn] at hp ⊢
    refine ⟨_, go_of hp rfl, rfl, rfl, ?_⟩
    show surf (put v c b) = upto (surf v) c (b :: cs.map fun _ => (nan, nan, nan))
    rw [upto_cons, surf_put, upto_nan _ _ _ (update_nan b hx)]
  · rw [if_neg hn] at hp ⊢
    obtain ⟨w, g, f⟩ := hK
    refine ⟨w, (go_of hp rfl).trans g, ?_⟩
    rw [bind_bind]
    rw [surf_put] at f
    simpa only [Outcome.bind, upto_cons] using f

theorem ends_loop {ins : ℕ → ℕ → F} : ∀ (k c : ℕ) (v : Var → ℕ → F), c + 1 + k = a.N → given v = ins → (∀ n, c + 1 ≤ n → surf v n = (nan, nan, nan)) →
    ∃ w, Go (prog a) ⟨v, [], .body (c + 1)⟩ w ∧
      Final ((trajLoop a.fuel a.tol a.eos a.kind (surf v c) ((List.range' (c + 1) k).map (a.casts ins))).bind fun r => .ret (upto (surf v) (c + 1) r)) w
  | 0, c, v, hk, hv, hx => by
    refine ⟨⟨v, [], .done⟩, go_of (l := []) ?_ rfl, rfl, rfl, ?_⟩
    · show (if c + 1 < a.N then _ else _) = _
      rw [if_neg (by omega)]
    · exact (upto_nan (surf v) (c + 1) ([] : List ℕ) hx).symm
  | k + 1, c, v, hk, hv, hx => by
    rw [List.range'_succ, List.map_cons]
    unfold trajLoop
    rw [bind_bind]
    refine ends_cont (k := fun b => ([.write .s (Function.update (v .s) (c + 1) b.1), .write .t (Function.update (v .t) (c + 1) b.2.1),
      .write .p (Function.update (v .p) (c + 1) b.2.2)], .test (c + 1))) ?_ ?_
    · show (if c + 1 < a.N then _ else _) = _
      rw [if_pos (by omega), if_neg (by omega), Nat.add_sub_cancel, hv]
      rfl
    · intro b _
      have := ends_loop k (c + 1) (put v (c + 1) b) (by omega) ((given_put ..).trans hv) (by rw [surf_put]; exact update_nan b hx)
      rw [show surf (put v (c + 1) b) (c + 1) = b from by rw [surf_put, Function.update_self]] at this
      exact ends_test _ hx this

/-- A call of `neutral_trajectory` by itself ends with the bottles or the exception of the model of the other properties. -/
theorem ends_trajectory (v : Var → ℕ → F) : ∃ w, Go (prog a) ⟨v, [], .start⟩ w ∧
    Final ((neutralTrajectory a.fuel a.tol a.eos a.kind a.p0 ((List.range a.N).map (a.casts (given v)))).bind fun r => .ret fun n => r.getD n (nan, nan, nan)) w := by
  obtain ⟨v0, e0, hv0, hx0⟩ : ∃ v0, [Instr.new Var.s fun _ => (nan : F), .new .t fun _ => nan, .new .p fun _ => nan].foldl vexec v = v0 ∧ given v0 = given v ∧
    surf v0 = fun _ => (nan, nan, nan) := ⟨_, rfl, rfl, rfl⟩
  have g0 : Go (prog a) ⟨v, [], .start⟩ ⟨v0, [], .body 0⟩ := go_of rfl e0
  have hu : (fun r : List (F × F × F) => (Outcome.ret fun n => r.getD n (nan, nan, nan) : Outcome (ℕ → F × F × F))) = fun r => .ret (upto (surf v0) 0 r) := by
    funext r; congr 1
  rw [hu, List.range_eq_range']
  suffices h : ∃ w, Go (prog a) ⟨v0, [], .body 0⟩ w ∧
      Final ((neutralTrajectory a.fuel a.tol a.eos a.kind a.p0 ((List.range' 0 a.N).map (a.casts (given v)))).bind fun r => .ret (upto (surf v0) 0 r)) w by
    obtain ⟨w, g, f⟩ := h
    exact ⟨w, g0.trans g, f⟩
  have hx : ∀ n, 0 ≤ n → surf v0 n = (nan, nan, nan) := fun n _ => by rw [hx0]
  rcases hN : a.N with _ | k
  · refine ⟨⟨v0, [], .done⟩, go_of (l := []) ?_ rfl, rfl, rfl, ?_⟩
    · show (if 0 < a.N then _ else _) = _
      rw [if_neg (by omega)]
    · exact (upto_nan (surf v0) 0 ([] : List ℕ) hx).symm
  · rw [List.range'_succ, List.map_cons]
    unfold neutralTrajectory
    rw [bind_bind]
    refine ends_cont (k := fun b => ([.write .s (Function.update (v0 .s) 0 b.1), .write .t (Function.update (v0 .t) 0 b.2.1),
      .write .p (Function.update (v0 .p) 0 b.2.2)], .test 0)) ?_ ?_
    · show (if 0 < a.N then _ else _) = _
      rw [if_pos (by omega), if_pos rfl, hv0]
    · intro b _
      have := ends_loop (a := a) (ins := given v) k 0 (put v0 0 b) (by omega) ((given_put ..).trans hv0) (by rw [surf_put]; exact update_nan b hx)
      rw [show surf (put v0 0 b) 0 = b from by rw [surf_put, Function.update_self]] at this
      exact ends_test _ hx this

end TrajThread

/-! ## Calls in threads -/

namespace SurfThread
open FloatLike Omega Threads OmegaThread
variable {F : Type*} [FloatLike F]

/-- What a call has returned: the arrays named `s`, `t` and `p` hold this surface, the rest is the diagnostics; or an exception. -/
def Ended (m : Mem F) : ∀ (j : Job F) (v : Var → ℕ → F), Thread Var F j.Ctrl → Prop
  | .omega cfg scalar, v, t =>
    t.todo = [] ∧
    match omega (cfg fun i => v (.inp i)) (pInitOf scalar v) with
    | .ok st => t.ctrl = OmegaThread.Ctrl.done st.rms st.rows st.last ∧ ∀ n, (m.buf (t.env .s) n, m.buf (t.env .t) n, m.buf (t.env .p) n) = st.stp n
    | .indexError => t.ctrl = OmegaThread.Ctrl.fail .indexError
    | .runtimeError => t.ctrl = OmegaThread.Ctrl.fail .runtimeError
    | .unbound => t.ctrl = OmegaThread.Ctrl.fail .unbound
    | .noReturn => t.ctrl = OmegaThread.Ctrl.fail .noReturn
  | .isopycnal a, v, t =>
    t.todo = [] ∧
    match Isopycnal.isopycnal a.fuel a.tol a.kind a.eos a.ty a.ref a.iso a.pinCast a.pinP (a.casts fun i => v (.inp i)) a.N with
    | .ok x => t.ctrl = IsoThread.Ctrl.done x.2.1 x.2.2 ∧ ∀ n, (m.buf (t.env .s) n, m.buf (t.env .t) n, m.buf (t.env .p) n) = x.1 n
    | .typeError => t.ctrl = IsoThread.Ctrl.fail .typeError
    | .valueError => t.ctrl = IsoThread.Ctrl.fail .valueError
    | .typingError => t.ctrl = IsoThread.Ctrl.fail .typingError
    | .noReturn => t.ctrl = IsoThread.Ctrl.fail .noReturn
  | .trajectory a, v, t =>
    t.todo = [] ∧
    match Traj.neutralTrajectory a.fuel a.tol a.eos a.kind a.p0 ((List.range a.N).map (a.casts fun i => v (.inp i))) with
    | .ret l => t.ctrl = TrajThread.Ctrl.done ∧ ∀ n, (m.buf (t.env .s) n, m.buf (t.env .t) n, m.buf (t.env .p) n) = l.getD n (nan, nan, nan)
    | .zeroDiv => t.ctrl = TrajThread.Ctrl.fail .zeroDiv
    | .unbound => t.ctrl = TrajThread.Ctrl.fail .unbound
    | .oob => t.ctrl = TrajThread.Ctrl.fail .oob
    | .outOfFuel => t.ctrl = TrajThread.Ctrl.fail .outOfFuel

/-- The call has returned a surface. -/
def Returned : ∀ (j : Job F), Thread Var F j.Ctrl → Prop
  | .omega _ _, t => t.todo = [] ∧ ∃ rms rows last, t.ctrl = OmegaThread.Ctrl.done rms rows last
  | .isopycnal _, t => t.todo = [] ∧ ∃ ref iso, t.ctrl = IsoThread.Ctrl.done ref iso
  | .trajectory _, t => t.todo = [] ∧ t.ctrl = TrajThread.Ctrl.done

/-- What a call owns. -/
def Owned : ∀ (j : Job F), j.Ctrl → (Var → Bool) → Prop
  | .omega _ _ => OmegaThread.Owned
  | .isopycnal _ => IsoThread.Owned
  | .trajectory _ => TrajThread.Owned

theorem disciplined : ∀ j : Job F, Disciplined j.prog j.start (Owned j)
  | .omega cfg scalar => OmegaThread.disciplined cfg scalar
  | .isopycnal a => IsoThread.disciplined a
  | .trajectory a => TrajThread.disciplined a

theorem returned_todo : ∀ (j : Job F) (t : Thread Var F j.Ctrl), Returned j t → t.todo = []
  | .omega _ _, _, h => h.1
  | .isopycnal _, _, h => h.1
  | .trajectory _, _, h => h.1

theorem returned_owned : ∀ (j : Job F) (t : Thread Var F j.Ctrl) (O : Var → Bool), Returned j t → Owned j t.ctrl O → t.todo = [] ∧ O .s = true ∧ O .t = true ∧ O .p = true
  | .omega _ _, t, O, ⟨h, rms, rows, last, e⟩, h' => by
    have h' : OmegaThread.Owned t.ctrl O := h'
    rw [e] at h'; exact ⟨h, h'⟩
  | .isopycnal _, t, O, ⟨h, ref, iso, e⟩, h' => by
    have h' : IsoThread.Owned t.ctrl O := h'
    rw [e] at h'; exact ⟨h, h'⟩
  | .trajectory _, t, O, ⟨h, e⟩, h' => by
    have h' : TrajThread.Owned t.ctrl O := h'
    rw [e] at h'; exact ⟨h, h'⟩

theorem ended_of : ∀ (j : Job F) (v : Var → ℕ → F), ∃ m, ∀ k, m ≤ k → ∀ (M : Mem F) (t : Thread Var F j.Ctrl), Sim M t ((VThread.step j.prog)^[k] ⟨v, [], j.start⟩) → Ended M j v t
  | .omega cfg scalar, v => by
    obtain ⟨w, ⟨m, hm⟩, hf⟩ := ends_omega (cfg := cfg) (scalar := scalar) v
    refine ⟨m, fun k hk M t hsim => ?_⟩
    obtain ⟨l, rfl⟩ := Nat.exists_eq_add_of_le hk
    have hw : (VThread.step (OmegaThread.prog cfg scalar))^[m + l] ⟨v, [], .start⟩ = w := by
      rw [Nat.add_comm, Function.iterate_add_apply, hm]
      exact Function.iterate_fixed (hf.stay _ _) l
    change Sim M t ((VThread.step (OmegaThread.prog cfg scalar))^[m + l] ⟨v, [], .start⟩) at hsim
    rw [hw] at hsim
    obtain ⟨s1, s2, s3⟩ := hsim
    obtain ⟨f1, f2⟩ := hf
    refine ⟨s2.trans f1, ?_⟩
    change match omega (cfg fun i => v (.inp i)) (pInitOf scalar v) with
      | .ok st => w.ctrl = .done st.rms st.rows st.last ∧ surf w.val = st.stp
      | .indexError => w.ctrl = .fail .indexError
      | .runtimeError => w.ctrl = .fail .runtimeError
      | .unbound => w.ctrl = .fail .unbound
      | .noReturn => w.ctrl = .fail .noReturn at f2
    generalize omega (cfg fun i => v (.inp i)) (pInitOf scalar v) = R at f2 ⊢
    rw [s3]
    cases R with
    | ok st =>
      refine ⟨f2.1, fun n => ?_⟩
      rw [s1, s1, s1, ← f2.2]
      rfl
    | indexError => exact f2
    | runtimeError => exact f2
    | unbound => exact f2
    | noReturn => exact f2
  | .isopycnal a, v => by
    obtain ⟨w, ⟨m, hm⟩, hf⟩ := IsoThread.ends_isopycnal (a := a) v
    refine ⟨m, fun k hk M t hsim => ?_⟩
    obtain ⟨l, rfl⟩ := Nat.exists_eq_add_of_le hk
    have hw : (VThread.step (IsoThread.prog a))^[m + l] ⟨v, [], .start⟩ = w := by
      rw [Nat.add_comm, Function.iterate_add_apply, hm]
      exact Function.iterate_fixed hf.stay l
    change Sim M t ((VThread.step (IsoThread.prog a))^[m + l] ⟨v, [], .start⟩) at hsim
    rw [hw] at hsim
    obtain ⟨s1, s2, s3⟩ := hsim
    obtain ⟨f1, f2⟩ := hf
    refine ⟨s2.trans f1, ?_⟩
    change match Isopycnal.isopycnal a.fuel a.tol a.kind a.eos a.ty a.ref a.iso a.pinCast a.pinP (a.casts fun i => v (.inp i)) a.N with
      | .ok x => w.ctrl = .done x.2.1 x.2.2 ∧ surf w.val = x.1
      | .typeError => w.ctrl = .fail .typeError
      | .valueError => w.ctrl = .fail .valueError
      | .typingError => w.ctrl = .fail .typingError
      | .noReturn => w.ctrl = .fail .noReturn at f2
    generalize Isopycnal.isopycnal a.fuel a.tol a.kind a.eos a.ty a.ref a.iso a.pinCast a.pinP (a.casts fun i => v (.inp i)) a.N = R at f2 ⊢
    rw [s3]
    cases R with
    | ok st =>
      refine ⟨f2.1, fun n => ?_⟩
      rw [s1, s1, s1, ← f2.2]
      rfl
    | typeError => exact f2
    | valueError => exact f2
    | typingError => exact f2
    | noReturn => exact f2
  | .trajectory a, v => by
    obtain ⟨w, ⟨m, hm⟩, hf⟩ := TrajThread.ends_trajectory (a := a) v
    refine ⟨m, fun k hk M t hsim => ?_⟩
    obtain ⟨l, rfl⟩ := Nat.exists_eq_add_of_le hk
    have hw : (VThread.step (TrajThread.prog a))^[m + l] ⟨v, [], .start⟩ = w := by
      rw [Nat.add_comm, Function.iterate_add_apply, hm]
      exact Function.iterate_fixed hf.stay l
    change Sim M t ((VThread.step (TrajThread.prog a))^[m + l] ⟨v, [], .start⟩) at hsim
    rw [hw] at hsim
    obtain ⟨s1, s2, s3⟩ := hsim
    have f1 := hf.1
    refine ⟨s2.trans f1, ?_⟩
    change TrajThread.Final ((Traj.neutralTrajectory a.fuel a.tol a.eos a.kind a.p0 ((List.range a.N).map (a.casts fun i => v (.inp i)))).bind
      fun r => .ret fun n => r.getD n (nan, nan, nan)) w at hf
    generalize Traj.neutralTrajectory a.fuel a.tol a.eos a.kind a.p0 ((List.range a.N).map (a.casts fun i => v (.inp i))) = R at hf ⊢
    have f2 := hf.2
    rw [s3]
    cases R with
    | ret r =>
      refine ⟨f2.1, fun n => ?_⟩
      rw [s1, s1, s1]
      exact congrFun f2.2 n
    | zeroDiv => exact f2
    | unbound => exact f2
    | oob => exact f2
    | outOfFuel => exact f2

section
variable {job : ℕ → Job F} {base : ℕ} {s : Sys Var F fun i => (job i).Ctrl} (hs : Starts (fun i => (job i).start) base s)
include hs

/-- **C169** Any number of calls of `omega_surf`, `potential_surf`, `anomaly_surf` and `neutral_trajectory` run in threads that share the memory, on arrays given by the caller that they may have in
common.  Whatever the schedule, no array of the caller is changed at any time. -/
theorem inputs_unchanged (σ : List ℕ) {b : ℕ} (hb : b < base) : (s.run (fun i => (job i).prog) σ).mem.buf b = s.mem.buf b :=
  (isolation (fun i => disciplined (job i)) hs σ).1 b hb

/-- **C169** A call that has been given enough steps, whatever the other calls do meanwhile, has ended with the surface and diagnostics, the trajectory, or the exception, that it has by itself on the
arrays as they were at the start. -/
theorem calls_isolated (i : ℕ) : ∃ m, ∀ σ : List ℕ, m ≤ σ.count i →
    Ended (s.run (fun i => (job i).prog) σ).mem (job i) (fun x => s.mem.buf ((s.th i).env x)) ((s.run (fun i => (job i).prog) σ).th i) := by
  obtain ⟨m, hm⟩ := ended_of (job i) fun x => s.mem.buf ((s.th i).env x)
  exact ⟨m, fun σ hσ => hm _ hσ _ _ ((isolation (fun i => disciplined (job i)) hs σ).2.1 i)⟩

/-- **C169** The arrays returned are new: not those of the caller, and different from each other and from all arrays of other calls. -/
theorem outputs_new (σ : List ℕ) (i : ℕ) (hr : Returned (job i) ((s.run (fun i => (job i).prog) σ).th i)) (x : Var) (hx : x = .s ∨ x = .t ∨ x = .p) :
    base ≤ ((s.run (fun i => (job i).prog) σ).th i).env x ∧
      ∀ j y, ((s.run (fun i => (job i).prog) σ).th i).env x = ((s.run (fun i => (job i).prog) σ).th j).env y → i = j ∧ x = y := by
  obtain ⟨_, _, i3, i4⟩ := isolation (fun i => disciplined (job i)) hs σ
  have ht := returned_todo _ _ hr
  obtain ⟨O, hO, hO'⟩ := i4 i ht
  have hox : O x = true := by
    obtain ⟨_, h1, h2, h3⟩ := returned_owned _ _ O hr hO
    rcases hx with rfl | rfl | rfl <;> assumption
  exact ⟨hO' x hox, i3 i x (hO' x hox)⟩

end

end SurfThread
