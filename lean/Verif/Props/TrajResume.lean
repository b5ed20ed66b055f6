import Verif.Props.NoCross
set_option linter.unusedSectionVars false

/-!
# Trajectories can be interrupted and resumed, bit for bit (C165)
-/

namespace Traj
open FloatLike Fzero Interp

section
variable {F : Type*} [FloatLike F] {fuel : ℕ} {tol : F} {eos : F → F → F → F} {kind : PPKind}

/-- **C165** A link returns the salinity and temperature with which a trajectory from its end starts. -/
theorem link_start {sB tB pB : F} {c : Cast F} {s t p : F} (h : ntpBottleToCast fuel tol eos kind sB tB pB c = .ret (s, t, p)) (hp : isFinite p = true)
    (hn : isFinite (nan : F) = false) : trajStart kind p c = .ret (s, t, p) := by
  unfold ntpBottleToCast ntpCast at h
  dsimp only at h
  split_ifs at h with h1
  · unfold trajStart
    dsimp only
    have hsz : (c.P.slice (validRange2 c.S c.P).1 (validRange2 c.S c.P).2).size ≠ 0 := by
      show (validRange2 c.S c.P).2 - (validRange2 c.S c.P).1 ≠ 0
      omega
    rw [if_neg hsz]
    generalize ppcFn kind (c.P.slice _ _) (c.S.slice _ _) = oS at h ⊢
    generalize ppcFn kind (c.P.slice _ _) (c.T.slice _ _) = oT at h ⊢
    cases oS with
    | none => cases h
    | some Sp =>
      cases oT with
      | none => cases h
      | some Tp =>
        dsimp only at h ⊢
        obtain ⟨q, h2, h3⟩ := bind_ret h
        split_ifs at h3 with h4
        · cases h3; rfl
        · cases h3; rw [hp] at h4; exact absurd rfl h4
  · cases h
    rw [hn] at hp
    cases hp

theorem trajLoop_append (cs ds : List (Cast F)) (c : Cast F) : ∀ (b : F × F × F) (out : List (F × F × F)),
    trajLoop fuel tol eos kind b (cs ++ c :: ds) = .ret out → ∀ s t p, out[cs.length]? = some (s, t, p) → isFinite p = true → isFinite (nan : F) = false →
    (∀ x : F, isFinite x = true → isNaN x = false) → trajLoop fuel tol eos kind (s, t, p) ds = .ret (out.drop (cs.length + 1)) ∧ trajStart kind p c = .ret (s, t, p) := by
  induction cs with
  | nil =>
    intro b out h s t p hout hp hn hfn
    rw [List.nil_append, trajLoop] at h
    obtain ⟨b', h1, h2⟩ := bind_ret h
    split_ifs at h2 with h3
    · cases h2
      simp only [List.length_nil, List.getElem?_cons_zero, Option.some.injEq] at hout
      subst hout
      rw [hfn p hp] at h3
      cases h3
    · obtain ⟨r, h4, h5⟩ := bind_ret h2
      cases h5
      simp only [List.length_nil, List.getElem?_cons_zero, Option.some.injEq] at hout
      subst hout
      exact ⟨by simpa using h4, link_start h1 hp hn⟩
  | cons c' cs ih =>
    intro b out h s t p hout hp hn hfn
    rw [List.cons_append, trajLoop] at h
    obtain ⟨b', h1, h2⟩ := bind_ret h
    split_ifs at h2 with h3
    · cases h2
      simp only [List.length_cons, List.getElem?_cons_succ, List.getElem?_map, Option.map_eq_some_iff] at hout
      obtain ⟨_, -, h4⟩ := hout
      simp only [Prod.mk.injEq] at h4
      rw [← h4.2.2, hn] at hp
      cases hp
    · obtain ⟨r, h4, h5⟩ := bind_ret h2
      cases h5
      simp only [List.length_cons, List.getElem?_cons_succ] at hout
      simpa using ih b' r h4 s t p hout hp hn hfn

/-- **C165** The part of a trajectory from some cast on is the trajectory that starts on this cast at the pressure reached there, in any arithmetic. -/
theorem trajectory_resume (hn : isFinite (nan : F) = false) (hfn : ∀ x : F, isFinite x = true → isNaN x = false) {p0 : F} {cs ds : List (Cast F)} {c : Cast F}
    {out : List (F × F × F)} (h : neutralTrajectory fuel tol eos kind p0 (cs ++ c :: ds) = .ret out) {s t p : F} (hout : out[cs.length]? = some (s, t, p))
    (hp : isFinite p = true) : neutralTrajectory fuel tol eos kind p (c :: ds) = .ret (out.drop cs.length) := by
  have fin : ∀ {b : F × F × F} {r}, b.2.2 = p → trajStart kind p c = .ret b → trajLoop fuel tol eos kind b ds = .ret r → neutralTrajectory fuel tol eos kind p (c :: ds) = .ret (b :: r) := by
    intro b r hb h1 h2
    simp only [neutralTrajectory, h1, Outcome.bind, hb, hfn p hp, h2]
    rfl
  cases cs with
  | nil =>
    rw [List.nil_append, neutralTrajectory] at h
    obtain ⟨b, h1, h2⟩ := bind_ret h
    have hb : b.2.2 = p0 := by
      unfold trajStart at h1
      dsimp only at h1
      split_ifs at h1
      split at h1
      · cases h1; rfl
      · cases h1
    split_ifs at h2 with h3
    · cases h2
      simp only [List.length_nil, List.getElem?_cons_zero, Option.some.injEq] at hout
      subst hout
      rw [hfn p hp] at h3
      cases h3
    · obtain ⟨r, h4, h5⟩ := bind_ret h2
      cases h5
      simp only [List.length_nil, List.getElem?_cons_zero, Option.some.injEq] at hout
      subst hout
      dsimp only at hb
      rw [← hb] at h1
      exact fin rfl h1 h4
  | cons c' cs =>
    rw [List.cons_append, neutralTrajectory] at h
    obtain ⟨b, h1, h2⟩ := bind_ret h
    split_ifs at h2 with h3
    · cases h2
      simp only [List.length_cons, List.getElem?_cons_succ, List.getElem?_map, Option.map_eq_some_iff] at hout
      obtain ⟨_, -, h4⟩ := hout
      simp only [Prod.mk.injEq] at h4
      rw [← h4.2.2, hn] at hp
      cases hp
    · obtain ⟨r, h4, h5⟩ := bind_ret h2
      cases h5
      simp only [List.length_cons, List.getElem?_cons_succ] at hout
      obtain ⟨g1, g2⟩ := trajLoop_append cs ds c b r h4 s t p hout hp hn hfn
      rw [fin rfl g2 g1]
      have hlt : cs.length < r.length := by
        by_contra hc
        rw [List.getElem?_eq_none (not_lt.1 hc)] at hout
        cases hout
      rw [List.getElem?_eq_getElem hlt, Option.some.injEq] at hout
      simp only [List.length_cons, List.drop_succ_cons]
      rw [← hout, ← List.drop_eq_getElem_cons hlt]

theorem trajLoop_length : ∀ (ds : List (Cast F)) (b : F × F × F) (r : List (F × F × F)), trajLoop fuel tol eos kind b ds = .ret r → r.length = ds.length := by
  intro ds
  induction ds with
  | nil => intro b r h; cases h; rfl
  | cons d ds ih =>
    intro b r h
    rw [trajLoop] at h
    obtain ⟨b', -, h⟩ := bind_ret h
    split_ifs at h
    · cases h; simp
    · obtain ⟨r', h1, h2⟩ := bind_ret h
      cases h2
      simp [ih b' r' h1]

theorem trajLoop_glue (cs ds : List (Cast F)) (c : Cast F) (hn : isFinite (nan : F) = false) (hfn : ∀ x : F, isFinite x = true → isNaN x = false) :
    ∀ (b : F × F × F) (out : List (F × F × F)) (s t p : F) (r : List (F × F × F)), trajLoop fuel tol eos kind b (cs ++ [c]) = .ret (out ++ [(s, t, p)]) → isFinite p = true →
    trajLoop fuel tol eos kind (s, t, p) ds = .ret r → trajLoop fuel tol eos kind b (cs ++ c :: ds) = .ret (out ++ (s, t, p) :: r) ∧ trajStart kind p c = .ret (s, t, p) := by
  induction cs with
  | nil =>
    intro b out s t p r h hp hr
    rw [List.nil_append, trajLoop] at h
    obtain ⟨b', h1, h2⟩ := bind_ret h
    have hb : b' = (s, t, p) ∧ out = [] := by
      split_ifs at h2 with h3
      · cases out with
        | nil =>
          cases h2
          exact ⟨rfl, rfl⟩
        | cons x out => simp at h2
      · simp only [trajLoop, Outcome.bind] at h2
        cases out with
        | nil =>
          cases h2
          exact ⟨rfl, rfl⟩
        | cons x out => simp at h2
    obtain ⟨rfl, rfl⟩ := hb
    refine ⟨?_, link_start h1 hp hn⟩
    rw [List.nil_append, List.nil_append, trajLoop]
    simp only [h1, Outcome.bind, hfn p hp, hr]
    rfl
  | cons c' cs ih =>
    intro b out s t p r h hp hr
    rw [List.cons_append, trajLoop] at h
    obtain ⟨b', h1, h2⟩ := bind_ret h
    split_ifs at h2 with h3
    · exfalso
      have e := Outcome.ret.inj h2
      have hl : (b' :: (cs ++ [c]).map fun _ => ((nan, nan, nan) : F × F × F)).getLast? = some (nan, nan, nan) := by
        rw [List.map_append, ← List.cons_append, List.map_singleton, List.getLast?_concat]
      rw [e, List.getLast?_concat] at hl
      simp only [Option.some.injEq, Prod.mk.injEq] at hl
      rw [hl.2.2, hn] at hp
      cases hp
    · obtain ⟨r', h4, h5⟩ := bind_ret h2
      have e := Outcome.ret.inj h5
      cases out with
      | nil =>
        exfalso
        simp only [List.nil_append, List.cons.injEq] at e
        rw [e.2] at h4
        have := trajLoop_length _ _ _ h4
        simp at this
      | cons x out =>
        rw [List.cons_append, List.cons.injEq] at e
        obtain ⟨rfl, rfl⟩ := e
        obtain ⟨g1, g2⟩ := ih b' out s t p r h4 hp hr
        refine ⟨?_, g2⟩
        rw [List.cons_append, trajLoop]
        simp only [h1, Outcome.bind, g1]
        rw [if_neg h3]
        rfl

/-- **C165** Conversely two trajectories, the second from the end of the first, make one. -/
theorem trajectory_glue (hn : isFinite (nan : F) = false) (hfn : ∀ x : F, isFinite x = true → isNaN x = false) {p0 : F} {c0 c : Cast F} {cs ds : List (Cast F)}
    {out out' : List (F × F × F)} {s t p : F} (h : neutralTrajectory fuel tol eos kind p0 (c0 :: (cs ++ [c])) = .ret (out ++ [(s, t, p)])) (hp : isFinite p = true)
    (h' : neutralTrajectory fuel tol eos kind p (c :: ds) = .ret out') : neutralTrajectory fuel tol eos kind p0 (c0 :: (cs ++ c :: ds)) = .ret (out ++ out') := by
  have h0 := trajectory_resume (cs := c0 :: cs) (ds := []) hn hfn (by simpa using h) (s := s) (t := t) (p := p) (by
    have hlen : out.length = (c0 :: cs).length := by
      rw [neutralTrajectory] at h
      obtain ⟨b, -, h⟩ := bind_ret h
      split_ifs at h
      · have := congrArg List.length (Outcome.ret.inj h)
        simp at this
        simp
        omega
      · obtain ⟨r, h1, h2⟩ := bind_ret h
        have e1 := congrArg List.length (Outcome.ret.inj h2)
        have e2 := trajLoop_length _ _ _ h1
        simp at e1 e2
        simp
        omega
    rw [← hlen]
    simp) hp
  rw [neutralTrajectory] at h h0 h'
  obtain ⟨b0, g1, g2⟩ := bind_ret h0
  obtain ⟨b1, k1, k2⟩ := bind_ret h'
  rw [g1] at k1
  cases k1
  obtain ⟨b, h1, h2⟩ := bind_ret h
  split_ifs at h2 with h3
  · exfalso
    have e := Outcome.ret.inj h2
    have hl : (b :: (cs ++ [c]).map fun _ => ((nan, nan, nan) : F × F × F)).getLast? = some (nan, nan, nan) := by
      rw [List.map_append, ← List.cons_append, List.map_singleton, List.getLast?_concat]
    rw [e, List.getLast?_concat] at hl
    simp only [Option.some.injEq, Prod.mk.injEq] at hl
    rw [hl.2.2, hn] at hp
    cases hp
  · obtain ⟨r, h4, h5⟩ := bind_ret h2
    have e := Outcome.ret.inj h5
    cases out with
    | nil =>
      exfalso
      simp only [List.nil_append, List.cons.injEq] at e
      rw [e.2] at h4
      have := trajLoop_length _ _ _ h4
      simp at this
    | cons x out =>
      rw [List.cons_append, List.cons.injEq] at e
      obtain ⟨rfl, rfl⟩ := e
      obtain ⟨-, hst⟩ := trajLoop_glue cs [] c hn hfn b out s t p [] h4 hp rfl
      rw [hst] at g1
      cases g1
      dsimp only at k2
      rw [if_neg (by rw [hfn p hp]; exact Bool.false_ne_true)] at k2
      obtain ⟨r, m1, m2⟩ := bind_ret k2
      obtain ⟨n1, -⟩ := trajLoop_glue cs ds c hn hfn b out s t p r h4 hp m1
      have := Outcome.ret.inj m2
      rw [neutralTrajectory]
      simp only [h1, Outcome.bind, n1]
      rw [if_neg h3, ← this]
      rfl

end

/-! ## Example -/

open VertSolve in
/-- In double precision: a trajectory over three casts, and the one from the second cast on. -/
example : ∃ out s t p, neutralTrajectory 60 (Rfl.fin (1 / 10000)) (fun s t p => s + t * p) .linear (Rfl.fin 3) [tbCast 30 0, tbCast 18 4, tbCast 18 4] = .ret out ∧
    out[1]? = some (s, t, p) ∧ isFinite p = true ∧
    neutralTrajectory 60 (Rfl.fin (1 / 10000)) (fun s t p => s + t * p) .linear p [tbCast 18 4, tbCast 18 4] = .ret (out.drop 1) := by
  have h : neutralTrajectory 60 (Rfl.fin (1 / 10000)) (fun s t p => s + t * p) .linear (Rfl.fin 3) [tbCast 30 0, tbCast 18 4, tbCast 18 4] =
      .ret [(Rfl.fin 33, Rfl.fin 0, Rfl.fin 3), (Rfl.fin 21, Rfl.fin 4, Rfl.fin 3), (Rfl.fin 21, Rfl.fin 4, Rfl.fin 3)] := by decide +kernel
  refine ⟨_, _, _, _, h, rfl, rfl, trajectory_resume (cs := [tbCast 30 0]) (by decide +kernel) ?_ h rfl rfl⟩
  rintro (_ | _ | _ | x) hx <;> first | rfl | cases hx

open VertSolve in
/-- The same trajectory from two parts. -/
example : neutralTrajectory 60 (Rfl.fin (1 / 10000)) (fun s t p => s + t * p) .linear (Rfl.fin 3) [tbCast 30 0, tbCast 18 4, tbCast 18 4] =
    .ret [(Rfl.fin 33, Rfl.fin 0, Rfl.fin 3), (Rfl.fin 21, Rfl.fin 4, Rfl.fin 3), (Rfl.fin 21, Rfl.fin 4, Rfl.fin 3)] :=
  trajectory_glue (cs := []) (out := [(Rfl.fin 33, Rfl.fin 0, Rfl.fin 3)]) (by decide +kernel)
    (by rintro (_ | _ | _ | x) hx <;> first | rfl | cases hx) trajectory_order_false.2 rfl (by decide +kernel)

end Traj
