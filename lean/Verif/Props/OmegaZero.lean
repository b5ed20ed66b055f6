import Verif.Props.Omega

/-!
# C81: no pass of the loop

With `ITER_MAX = 0` the initial surface comes back without diagnostics, and never with them.
-/

namespace Omega

open FloatLike

variable {F : Type*} [FloatLike F]

/-- C81, what holds: without diagnostics, `ITER_MAX = 0` returns the initial surface: at each cast the given pressure with salinity and
temperature interpolated there, and no pressure where there is no salinity; an initial surface that is not there at the pinning cast
raises. -/
theorem omega_zero_partial {c : Cfg F} (h0 : c.iterMax = 0) (hd : c.diags = false) (p : ℕ → F)
    (hi : ∀ n < c.N, ∃ st, interpTwo c (p n) n = some st) (hp : c.pin < c.N) :
    ∃ st : ℕ → F × F, (∀ n < c.N, interpTwo c (p n) n = some (st n)) ∧
      (isNaN (st c.pin).1 = true → omega c (.array p) = .runtimeError) ∧
      (isNaN (st c.pin).1 = false → ∃ s, omega c (.array p) = .ok s ∧ s.last = 0 ∧ s.rows = [] ∧
        ∀ n < c.N, s.stp n = ((st n).1, (st n).2, if isNaN (st n).1 then nan else p n)) := by
  classical
  have hs : ∀ n < c.N, (interpTwo c (p n) n).isSome := fun n hn => by
    obtain ⟨x, hx⟩ := hi n hn
    rw [hx]
    rfl
  refine ⟨fun n => (interpTwo c (p n) n).getD (nan, nan), fun n hn => ?_, fun hn => ?_, fun hn => ?_⟩
  · obtain ⟨x, hx⟩ := hi n hn
    simp [hx]
  · simp only [omega, init, initRaw, if_pos hs, Res.bind, if_pos hp, hn, if_true]
  · refine ⟨_, by simp only [omega, init, initRaw, if_pos hs, Res.bind, if_pos hp, hn, h0, loop, hd]; rfl, rfl, rfl, fun n hn' => ?_⟩
    by_cases hx : isNaN ((interpTwo c (p n) n).getD (nan, nan)).1 = true
    · simp [hn', hx]
    · simp [hn', hx]

/-- C81 is violated by every run with diagnostics: with `ITER_MAX = 0` no input makes `omega_surf` return. -/
theorem omega_zero_false {c : Cfg F} (h0 : c.iterMax = 0) (hd : c.diags = true) (p0 : PInit F) :
    (∀ s, omega c p0 ≠ .ok s) ∧ (∀ stp, init c p0 = .ok stp → omega c p0 = .unbound) := by
  have key : ∀ stp, init c p0 = .ok stp → omega c p0 = .unbound := fun stp h => by simp [omega, h, Res.bind, h0, loop, hd]
  refine ⟨fun s h => ?_, key⟩
  cases hi : init c p0 with
  | ok stp => rw [key stp hi] at h; cases h
  | _ => simp [omega, hi, Res.bind] at h

/-- The hypotheses of both for the demonstration ocean. -/
example : ∃ s, omega { demo .ninf 0 with diags := false } (.array fun _ => .fin 2) = .ok s ∧ s.last = 0 ∧ s.rows = [] := by
  obtain ⟨st, h1, -, h3⟩ := omega_zero_partial (c := { demo .ninf 0 with diags := false }) rfl rfl (fun _ => .fin 2)
    (fun n hn => by
      have : n = 0 ∨ n = 1 := by have : n < 2 := hn; omega
      rcases this with rfl | rfl
      · exact ⟨(.fin 2, .fin 0), by decide +kernel⟩
      · exact ⟨(.fin 3, .fin 0), by decide +kernel⟩) (by decide)
  obtain ⟨s, e, e1, e2, -⟩ := h3 (by
    have e : interpTwo ({ demo .ninf 0 with diags := false } : Cfg (Fl ℚ)) (.fin 2) 0 = some (.fin 2, .fin 0) := by decide +kernel
    have := (h1 0 (by decide)).symm.trans e
    simp only [Option.some.injEq] at this
    show isNaN (st 0).1 = false
    rw [this]
    rfl)
  exact ⟨s, e, e1, e2⟩

example (stp : Surf (Fl ℚ)) (h : init (demo .ninf 0) (.array fun _ => .fin 2) = .ok stp) : omega (demo .ninf 0) (.array fun _ => .fin 2) = .unbound :=
  (omega_zero_false rfl rfl _).2 stp h

end Omega
