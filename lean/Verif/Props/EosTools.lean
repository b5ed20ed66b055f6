import Verif.Model.EosTools
import Verif.Props.EosBox

/-!
# Properties of the equation of state tools (C54, C95, C96)
-/

namespace EosTools
open FloatLike Eos Interp Topology
open Fl hiding nan

/-! ### Specification -/

/-- Near the finite pressure `p`, `f` returns one finite number, and `fp` returns its derivative at `p`. -/
def DerivP (f fp : Fn (Fl ℝ)) (s t p : ℝ) : Prop :=
  ∃ φ : ℝ → ℝ, ∃ d : ℝ, (∀ᶠ q in 𝓝 p, f (.fin s) (.fin t) (.fin q) = some [.fin (φ q)]) ∧
    fp (.fin s) (.fin t) (.fin p) = some [.fin d] ∧ HasDerivAt φ d p

/-- Near the finite salinity `s` (among nonnegative salinities) and temperature `t`, `f` returns one finite number, and
`fst` returns its two partial derivatives. -/
def DerivST (f fst : Fn (Fl ℝ)) (s t p : ℝ) : Prop :=
  ∃ φ ψ : ℝ → ℝ, ∃ a b : ℝ, (∀ᶠ x in 𝓝[Set.Ici 0] s, f (.fin x) (.fin t) (.fin p) = some [.fin (φ x)]) ∧
    (∀ᶠ x in 𝓝 t, f (.fin s) (.fin x) (.fin p) = some [.fin (ψ x)]) ∧
    fst (.fin s) (.fin t) (.fin p) = some [.fin a, .fin b] ∧ HasDerivWithinAt φ a (Set.Ici 0) s ∧ HasDerivAt ψ b t

/-- Hydrostatic pressure in dbar per metre of depth. -/
noncomputable def zToP (g r : ℝ) : ℝ := 1e-4 * g * r

theorem bsq0 (f : Fn (Fl ℝ)) (g r : ℝ) (s t : Fl ℝ) (z : ℝ) :
    makeBsq f (.fin g) (.fin r) 0 s t (.fin z) = f s t (.fin (z * zToP g r)) := by
  have : (lit 1e-4 : Fl ℝ) * .fin g * .fin r = .fin (zToP g r) := by
    rw [lit_eq, fin_mul, fin_mul, zToP]
    norm_num
  simp only [makeBsq, this, if_true, fin_mul]

theorem bsq1 (f : Fn (Fl ℝ)) (g r : ℝ) (s t : Fl ℝ) (z : ℝ) :
    makeBsq f (.fin g) (.fin r) 1 s t (.fin z) = (f s t (.fin (z * zToP g r))).map (·.map (· * .fin (zToP g r))) := by
  have : (lit 1e-4 : Fl ℝ) * .fin g * .fin r = .fin (zToP g r) := by
    rw [lit_eq, fin_mul, fin_mul, zToP]
    norm_num
  simp only [makeBsq, this, one_ne_zero, if_false, fin_mul, fpow]

/-- **C54** The chain rule: if `fp` is the pressure derivative of any equation of state `f`, the Boussinesq version of
`fp` is the depth derivative of the Boussinesq version of `f`. -/
theorem bsq_deriv_p {f fp : Fn (Fl ℝ)} {s t z g r : ℝ} (h : DerivP f fp s t (z * zToP g r)) :
    DerivP (makeBsq f (.fin g) (.fin r) 0) (makeBsq fp (.fin g) (.fin r) 1) s t z := by
  obtain ⟨φ, d, h1, h2, h3⟩ := h
  have hm : HasDerivAt (fun z => z * zToP g r) (zToP g r) z := by simpa using (hasDerivAt_id' z).mul_const (zToP g r)
  refine ⟨fun z => φ (z * zToP g r), d * zToP g r, ?_, ?_, HasDerivAt.comp z h3 hm⟩
  · filter_upwards [hm.continuousAt.eventually h1] with q hq
    rw [bsq0, hq]
  · rw [bsq1, h2, Option.map_some, List.map_cons, List.map_nil, fin_mul]

theorem fpow_fin (c : ℝ) : ∀ n, fpow (.fin c : Fl ℝ) n = .fin (c ^ n)
  | 0 => by simp [fpow]
  | 1 => by simp [fpow]
  | n + 2 => by rw [fpow, fpow_fin c (n + 1), fin_mul, ← pow_succ]

theorem bsqn (f : Fn (Fl ℝ)) (g r : ℝ) (n : ℕ) (s t : ℝ) (z v : ℝ) (h : f (.fin s) (.fin t) (.fin (z * zToP g r)) = some [.fin v]) :
    makeBsq f (.fin g) (.fin r) n (.fin s) (.fin t) (.fin z) = some [.fin (v * zToP g r ^ n)] := by
  cases n with
  | zero => rw [bsq0, h, pow_zero, mul_one]
  | succ n =>
    have : (lit 1e-4 : Fl ℝ) * .fin g * .fin r = .fin (zToP g r) := by
      rw [lit_eq, fin_mul, fin_mul, zToP]
      norm_num
    simp only [makeBsq, this, Nat.succ_ne_zero, if_false, fin_mul, h, fpow_fin, Option.map_some, List.map_cons, List.map_nil]

/-- **C54** The chain rule at every order: if `fn` is made of `n` pressure derivatives and `fp` is its pressure derivative, then the Boussinesq
version of `fp` (`n + 1` pressure derivatives) is the depth derivative of the Boussinesq version of `fn`. -/
theorem bsq_deriv_order {f fp : Fn (Fl ℝ)} {s t z g r : ℝ} (n : ℕ) (h : DerivP f fp s t (z * zToP g r)) :
    DerivP (makeBsq f (.fin g) (.fin r) n) (makeBsq fp (.fin g) (.fin r) (n + 1)) s t z := by
  obtain ⟨φ, d, h1, h2, h3⟩ := h
  have hm : HasDerivAt (fun z => z * zToP g r) (zToP g r) z := by simpa using (hasDerivAt_id' z).mul_const (zToP g r)
  refine ⟨fun z => φ (z * zToP g r) * zToP g r ^ n, d * zToP g r ^ (n + 1), ?_, bsqn fp g r (n + 1) s t z d h2, ?_⟩
  · filter_upwards [hm.continuousAt.eventually h1] with q hq
    exact bsqn f g r n s t q _ hq
  · have : HasDerivAt (fun z => φ (z * zToP g r)) (d * zToP g r) z := HasDerivAt.comp z h3 hm
    have := this.mul_const (zToP g r ^ n)
    rwa [mul_assoc, ← pow_succ'] at this

/-- Second derivative of `p ↦ p³`, third order. -/
example : DerivP (makeBsq (fun _ _ p => some [lit 6 * p]) (.fin 10) (.fin 1000) 2) (makeBsq (fun _ _ _ => some [lit 6]) (.fin 10) (.fin 1000) 3) 35 10 100 := by
  refine bsq_deriv_order 2 ⟨fun p => 6 * p, 6, .of_forall fun q => ?_, ?_, ?_⟩
  · simp
  · simp
  · simpa using (hasDerivAt_id' _).const_mul (6 : ℝ)

/-- **C54** Salinity and temperature derivatives carry over to the Boussinesq version unchanged. -/
theorem bsq_deriv_st {f fst : Fn (Fl ℝ)} {s t z g r : ℝ} (h : DerivST f fst s t (z * zToP g r)) :
    DerivST (makeBsq f (.fin g) (.fin r) 0) (makeBsq fst (.fin g) (.fin r) 0) s t z := by
  obtain ⟨φ, ψ, a, b, h1, h2, h3, h4, h5⟩ := h
  exact ⟨φ, ψ, a, b, by simpa only [bsq0] using h1, by simpa only [bsq0] using h2, by rw [bsq0, h3], h4, h5⟩

/-! ### The shipped equations of state -/

theorem gsw_deriv {s t p : ℝ} (hs : 0 ≤ s) :
    DerivP (fun s t p => some [Gsw.specvol s t p]) (fun s t p => (Gsw.specvolP s t p).map fun r => [r]) s t p ∧
    DerivST (fun s t p => some [Gsw.specvol s t p]) (fun s t p => (Gsw.specvolST s t p).map fun r => [r.1, r.2]) s t p := by
  obtain ⟨d, hd, hv⟩ := Gsw.gsw_derivatives
  have h0 := hd 0 0 0 (by omega)
  refine ⟨⟨fun q => d 0 0 0 s t q, d 0 0 1 s t p, ?_, ?_, h0.2.2 s hs t p⟩,
    ⟨fun x => d 0 0 0 x t p, fun x => d 0 0 0 s x p, d 1 0 0 s t p, d 0 1 0 s t p, ?_, ?_, ?_, h0.1 s hs t p, h0.2.1 s hs t p⟩⟩
  · exact Filter.Eventually.of_forall fun q => by dsimp only; rw [(hv s hs t q).1]
  · dsimp only; rw [(hv s hs t p).2.2.2.2.2.1]; rfl
  · filter_upwards [self_mem_nhdsWithin] with x hx
    rw [(hv x hx t p).1]
  · exact Filter.Eventually.of_forall fun x => by dsimp only; rw [(hv s hs x p).1]
  · dsimp only; rw [(hv s hs t p).2.2.2.2.1]; rfl

theorem jmd95_deriv {s t p : ℝ} (hs : 0 ≤ s) (hK : Jmd95.K s t p ≠ 0) (hp : Jmd95.K s t p ≠ p) :
    DerivP (fun s t p => (Jmd95.rho s t p).map fun r => [r]) (fun s t p => (Jmd95.rhoP s t p).map fun r => [r]) s t p ∧
    DerivST (fun s t p => (Jmd95.rho s t p).map fun r => [r]) (fun s t p => (Jmd95.rhoST s t p).map fun r => [r.1, r.2]) s t p := by
  have hd : Jmd95.K s t p - p ≠ 0 := sub_ne_zero.mpr hp
  obtain ⟨a, b, e1, e2, e3⟩ := Jmd95.rhoST_derivatives hs hK hp
  obtain ⟨c, e4, e5⟩ := Jmd95.rhoP_derivative hs hK hp
  refine ⟨⟨fun q => Jmd95.density s t q, c, ?_, by dsimp only; rw [e4]; rfl, e5⟩,
    ⟨fun x => Jmd95.density x t p, fun x => Jmd95.density s x p, a, b, ?_, ?_, by dsimp only; rw [e1]; rfl, e2, e3⟩⟩
  · have hc := (Jmd95.K_deriv_p s t p).continuousAt
    filter_upwards [hc.eventually_ne hK, (hc.sub continuousAt_id).eventually_ne hd] with q h1 h2
    rw [Jmd95.rho_eq hs h1 (sub_ne_zero.mp h2)]; rfl
  · have hc := (Jmd95.K_deriv_s (t := t) (p := p) hs).continuousWithinAt
    filter_upwards [hc.eventually_ne hK, (hc.sub continuousWithinAt_const).eventually_ne hd, self_mem_nhdsWithin] with q h1 h2 h3
    rw [Jmd95.rho_eq h3 h1 (sub_ne_zero.mp h2)]; rfl
  · have hc := (Jmd95.K_deriv_t s t p).continuousAt
    filter_upwards [hc.eventually_ne hK, (hc.sub continuousAt_const).eventually_ne hd] with q h1 h2
    rw [Jmd95.rho_eq hs h1 (sub_ne_zero.mp h2)]; rfl

theorem jmdfwg06_deriv {s t p : ℝ} (hs : 0 ≤ s) (hD : Jmdfwg06.D s t p ≠ 0) :
    DerivP (fun s t p => (Jmdfwg06.rho s t p).map fun r => [r]) (fun s t p => (Jmdfwg06.rhoP s t p).map fun r => [r]) s t p ∧
    DerivST (fun s t p => (Jmdfwg06.rho s t p).map fun r => [r]) (fun s t p => (Jmdfwg06.rhoST s t p).map fun r => [r.1, r.2]) s t p := by
  obtain ⟨a, b, e1, e2, e3⟩ := Jmdfwg06.rhoST_derivatives hs hD
  obtain ⟨c, e4, e5⟩ := Jmdfwg06.rhoP_derivative hs hD
  refine ⟨⟨fun q => Jmdfwg06.density s t q, c, ?_, by dsimp only; rw [e4]; rfl, e5⟩,
    ⟨fun x => Jmdfwg06.density x t p, fun x => Jmdfwg06.density s x p, a, b, ?_, ?_, by dsimp only; rw [e1]; rfl, e2, e3⟩⟩
  · have hc := (Jmdfwg06.D_deriv_p s t p).continuousAt
    filter_upwards [hc.eventually_ne hD] with q h1
    rw [Jmdfwg06.rho_eq hs h1]; rfl
  · have hc := (Jmdfwg06.D_deriv_s (t := t) (p := p) hs).continuousWithinAt
    filter_upwards [hc.eventually_ne hD, self_mem_nhdsWithin] with q h1 h3
    rw [Jmdfwg06.rho_eq h3 h1]; rfl
  · have hc := (Jmdfwg06.D_deriv_t s t p).continuousAt
    filter_upwards [hc.eventually_ne hD] with q h1
    rw [Jmdfwg06.rho_eq hs h1]; rfl

/-- The pressure seen by the equation of state: with both `grav` and `rho_c` the third argument is a depth, otherwise a
pressure. -/
noncomputable def pressure (g r : Option ℝ) (z : ℝ) : ℝ :=
  match g, r with
  | some g, some r => z * zToP g r
  | _, _ => z

/-- **C54** For every shipped equation of state, with or without gravity and reference density (either may be missing),
`make_eos`, `make_eos_s_t` and `make_eos_p` with the same arguments succeed, and the latter two return the exact partial
derivatives of the first with respect to its own arguments (depth when Boussinesq), wherever salinity, temperature and
the pressure seen are in the oceanographic range. -/
theorem make_eos_derivatives (name : String) (hn : name = "gsw" ∨ name = "jmd95" ∨ name = "jmdfwg06") (g r : Option ℝ) :
    ∃ f fst fp : Fn (Fl ℝ), makeEos (.str name) (g.map .fin) (r.map .fin) = .ok f ∧
      makeEosST (.str name) (g.map .fin) (r.map .fin) = .ok fst ∧ makeEosP (.str name) (g.map .fin) (r.map .fin) = .ok fp ∧
      ∀ s t z, Jmd95.Ocean s t (pressure g r z) → DerivP f fp s t z ∧ DerivST f fst s t z := by
  have lift : ∀ f fst fp : Fn (Fl ℝ), makeEos' (.str name) "" 0 none none = .ok f → makeEos' (.str name) "_s_t" 0 none none = .ok fst →
      makeEos' (.str name) "_p" 1 none none = .ok fp → (∀ s t p, Jmd95.Ocean s t p → DerivP f fp s t p ∧ DerivST f fst s t p) →
      ∃ f fst fp : Fn (Fl ℝ), makeEos (.str name) (g.map .fin) (r.map .fin) = .ok f ∧
      makeEosST (.str name) (g.map .fin) (r.map .fin) = .ok fst ∧ makeEosP (.str name) (g.map .fin) (r.map .fin) = .ok fp ∧
      ∀ s t z, Jmd95.Ocean s t (pressure g r z) → DerivP f fp s t z ∧ DerivST f fst s t z := by
    intro f fst fp h1 h2 h3 h
    have b : ∀ d n (G R : Option (Fl ℝ)) k, makeEos' (.str name) d n none none = .ok k → makeEos' (.str name) d n G R =
        .ok (match G, R with | some G, some R => makeBsq k G R n | _, _ => k) := by
      intro d n G R k hk
      simp only [makeEos'] at hk ⊢
      split at hk
      · cases hk
      · rename_i fn e
        cases hk
        cases G <;> cases R <;> rfl
    refine ⟨_, _, _, b _ _ _ _ _ h1, b _ _ _ _ _ h2, b _ _ _ _ _ h3, fun s t z hz => ?_⟩
    cases g with
    | none => exact h s t z hz
    | some g =>
      cases r with
      | none => exact h s t z hz
      | some r => exact ⟨bsq_deriv_p (h s t _ hz).1, bsq_deriv_st (h s t _ hz).2⟩
  rcases hn with rfl | rfl | rfl
  · exact lift _ _ _ rfl rfl rfl fun s t p h => gsw_deriv h.s0
  · exact lift _ _ _ rfl rfl rfl fun s t p h => jmd95_deriv h.s0 h.ne.1 h.ne.2
  · exact lift _ _ _ rfl rfl rfl fun s t p h => jmdfwg06_deriv h.s0
      (Jmdfwg06.Ocean.bounds ⟨h.s0, h.s1, h.t0, h.t1, h.p0, h.p1⟩).1.ne'

/-- The range is reached: 2000 m depth under ordinary gravity and reference density. -/
example : Jmd95.Ocean 35 10 (pressure (some 9.81) (some 1027.5) 2000) := by
  constructor <;> norm_num [pressure, zToP]

/-! ### Which arguments are accepted -/

/-- The strings naming an equation of state. -/
def Known (s : String) : Prop := s = "gsw" ∨ s = "jmd95" ∨ s = "jmdfwg06"

theorem modules_none {s : String} (h : ¬ Known s) : modules s = none := by
  unfold modules
  split <;> first | rfl | exact absurd (by simp [Known]) h

/-- **C96** `make_eos`, `make_eos_s_t` and `make_eos_p` succeed exactly on the three known names and on callables; any
other string is a `ValueError`, anything else a `TypeError`. -/
theorem make_eos_accepts {F : Type*} [FloatSqrt F] (eos : Arg F) (g r : Option F) :
    (match eos with
      | .str s => (Known s → (∃ f, makeEos eos g r = .ok f) ∧ (∃ f, makeEosST eos g r = .ok f) ∧ ∃ f, makeEosP eos g r = .ok f) ∧
          (¬ Known s → makeEos eos g r = .error .value ∧ makeEosST eos g r = .error .value ∧ makeEosP eos g r = .error .value)
      | .fn _ => (∃ f, makeEos eos g r = .ok f) ∧ (∃ f, makeEosST eos g r = .ok f) ∧ ∃ f, makeEosP eos g r = .ok f
      | _ => makeEos eos g r = .error .type ∧ makeEosST eos g r = .error .type ∧ makeEosP eos g r = .error .type) := by
  cases eos with
  | str s =>
    refine ⟨?_, fun h => ?_⟩
    · rintro (rfl | rfl | rfl) <;> cases g <;> cases r <;> exact ⟨⟨_, rfl⟩, ⟨_, rfl⟩, ⟨_, rfl⟩⟩
    · simp only [makeEos, makeEosST, makeEosP, makeEos', modules_none h, and_self]
  | fn f => cases g <;> cases r <;> exact ⟨⟨_, rfl⟩, ⟨_, rfl⟩, ⟨_, rfl⟩⟩
  | seq l => exact ⟨rfl, rfl, rfl⟩
  | other => exact ⟨rfl, rfl, rfl⟩

/-- **C96** `_process_eos` on a string is `make_eos` (and `make_eos_s_t`). -/
theorem process_str {F : Type*} [FloatSqrt F] {s : String} (h : Known s) (g r : Option F) : ∃ f fst,
    makeEos (.str s) g r = .ok f ∧ makeEosST (.str s) g r = .ok fst ∧
    processEos (.str s) g r false = .ok (f, none) ∧ processEos (.str s) g r true = .ok (f, some fst) := by
  obtain ⟨⟨f, hf⟩, ⟨fst, hst⟩, -⟩ := (make_eos_accepts (.str s) g r).1 h
  refine ⟨f, fst, hf, hst, ?_, ?_⟩
  · simp only [processEos, hf]; rfl
  · simp only [processEos, hf, hst]; rfl

/-- **C96** `_process_eos` returns functions untouched, and reads a pair as the function and its derivatives. -/
theorem process_fn {F : Type*} [FloatSqrt F] (f fst : Fn F) (g r : Option F) :
    processEos (.fn f) g r false = .ok (f, none) ∧ processEos (.seq [.fn f, .fn fst]) g r true = .ok (f, some fst) ∧
    processEos (.seq [.fn f, .fn fst]) g r false = .ok (f, none) ∧ processEos (.fn f) g r true = .error .value :=
  ⟨rfl, rfl, rfl, rfl⟩

/-- **C96** When the derivatives are needed, anything that is not a known name or a pair of callables is refused. -/
theorem process_refuses {F : Type*} [FloatSqrt F] (eos : Arg F) (g r : Option F) (hs : ∀ s, eos ≠ .str s)
    (hp : ∀ a b, eos ≠ .seq [.fn a, .fn b]) : processEos eos g r true = .error .value := by
  cases eos with
  | str s => exact absurd rfl (hs s)
  | fn f => rfl
  | other => rfl
  | seq l =>
    match l with
    | [] => rfl
    | [a] => rfl
    | a :: b :: c :: l => rfl
    | [a, b] =>
      cases a <;> cases b <;> first | rfl | exact absurd rfl (hp _ _)

/-! ### Applying the conversion twice -/

/-- **C95** The surface functions (through `_process_eos`) use a function given as `eos` as it is, but `make_eos` — and
with it `mixed_layer`, `ntp_bottle_to_cast`, `neutral_trajectory` and the `ntp` functions — converts it again when
`grav` and `rho_c` are passed too. On the specific volume, at every depth where both pressures are in the oceanographic
range, the two disagree unless the depth is zero or one metre is exactly one decibar. -/
theorem bsq_not_idempotent_false {s t z g r : ℝ} {f f' : Fn (Fl ℝ)}
    (hf : makeEos (.str "gsw") (some (.fin g)) (some (.fin r)) = .ok f) (hf' : makeEos (.fn f) (some (.fin g)) (some (.fin r)) = .ok f')
    (h1 : Gsw.Ocean s t (z * zToP g r)) (h2 : Gsw.Ocean s t (z * zToP g r * zToP g r)) (hz : z * zToP g r ≠ 0) (h : zToP g r ≠ 1) :
    processEos (.fn f) (some (.fin g)) (some (.fin r)) false = .ok (f, none) ∧
    f (.fin s) (.fin t) (.fin z) ≠ f' (.fin s) (.fin t) (.fin z) := by
  refine ⟨rfl, ?_⟩
  cases hf
  cases hf'
  rw [bsq0, bsq0, bsq0]
  intro e
  have e' : Gsw.specvol (Fl.fin s) (.fin t) (.fin (z * zToP g r)) = Gsw.specvol (Fl.fin s) (.fin t) (.fin (z * zToP g r * zToP g r)) :=
    (List.cons.inj (Option.some.inj e)).1
  have hne : z * zToP g r ≠ z * zToP g r * zToP g r := by
    intro he
    apply h
    have : z * zToP g r * (zToP g r - 1) = 0 := by linarith
    rcases mul_eq_zero.mp this with h | h
    · exact absurd h hz
    · linarith
  rcases lt_or_gt_of_ne hne with hlt | hlt
  · obtain ⟨v, v', a, b, c⟩ := Gsw.gsw_mono_p h1 h2 hlt
    rw [a, b] at e'
    cases e'
    exact lt_irrefl _ c
  · obtain ⟨v, v', a, b, c⟩ := Gsw.gsw_mono_p h2 h1 hlt
    rw [a, b] at e'
    cases e'
    exact lt_irrefl _ c

/-- The hypotheses are met at 2000 m with ordinary gravity and reference density. -/
example : Gsw.Ocean 35 10 (2000 * zToP 9.81 1027.5) ∧ Gsw.Ocean 35 10 (2000 * zToP 9.81 1027.5 * zToP 9.81 1027.5) ∧
    (2000 * zToP 9.81 1027.5 ≠ 0) ∧ zToP 9.81 1027.5 ≠ 1 := by
  refine ⟨?_, ?_, ?_, ?_⟩
  · constructor <;> norm_num [zToP]
  · constructor <;> norm_num [zToP]
  · norm_num [zToP]
  · norm_num [zToP]

end EosTools
