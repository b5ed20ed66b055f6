import Verif.Model.MakePP
import Mathlib.Tactic.Tauto

/-!
# Properties of `make_pp` (C55)
-/

namespace MakePP

/-- The accepted option combinations: a known interpolant; coefficients (of one variable) or interpolation (of one or
two variables); one problem or many; and the no-NaN shortcut only for the coefficients of one problem. -/
def Accepts (r : Request) : Prop :=
  (r.interpolant = "linear" ∨ r.interpolant = "pchip") ∧ (r.kind = "1" ∨ r.kind = "u") ∧
  ((r.out = "coeffs" ∧ r.numDepVars = 1) ∨ (r.out = "interp" ∧ (r.numDepVars = 1 ∨ r.numDepVars = 2))) ∧
  (r.nans = true ∨ (r.out = "coeffs" ∧ r.kind = "1"))

/-- What the returned function does: coefficients or interpolation, one problem or many, skipping the search for NaN
(possible for pchip only), one or two dependent variables. -/
structure Does where
  interpolant : String
  coeffs : Bool
  one : Bool
  nonan : Bool
  two : Bool
deriving DecidableEq

/-- The functions of the package by what they do, read off their docstrings. -/
def does : String → Option Does
  | "linear_coeffs" => some ⟨"linear", true, false, false, false⟩
  | "linear_coeffs_1" => some ⟨"linear", true, true, false, false⟩
  | "linear_interp" => some ⟨"linear", false, false, false, false⟩
  | "linear_interp_1" => some ⟨"linear", false, true, false, false⟩
  | "linear_interp_two" => some ⟨"linear", false, false, false, true⟩
  | "linear_interp_1_two" => some ⟨"linear", false, true, false, true⟩
  | "pchip_coeffs" => some ⟨"pchip", true, false, false, false⟩
  | "pchip_coeffs_1" => some ⟨"pchip", true, true, false, false⟩
  | "pchip_coeffs_1_nonan" => some ⟨"pchip", true, true, true, false⟩
  | "pchip_interp" => some ⟨"pchip", false, false, false, false⟩
  | "pchip_interp_1" => some ⟨"pchip", false, true, false, false⟩
  | "pchip_interp_two" => some ⟨"pchip", false, false, false, true⟩
  | "pchip_interp_1_two" => some ⟨"pchip", false, true, false, true⟩
  | _ => none

theorem accepted_cases {r : Request} (h : Accepts r) : ∃ i ∈ ["linear", "pchip"], ∃ k ∈ ["1", "u"], ∃ o ∈ ["coeffs", "interp"],
    ∃ n ∈ [true, false], ∃ d ∈ [(1 : Int), 2], r = ⟨i, k, o, n, d⟩ ∧ (o = "coeffs" → d = 1) ∧ (n = false → o = "coeffs" ∧ k = "1") := by
  obtain ⟨i, k, o, n, d⟩ := r
  obtain ⟨h1, h2, h3, h4⟩ := h
  dsimp only at h1 h2 h3 h4
  refine ⟨i, by simpa using h1, k, by simpa using h2, o, ?_, n, by cases n <;> simp, d, ?_, rfl, ?_, ?_⟩
  · rcases h3 with ⟨h, -⟩ | ⟨h, -⟩ <;> simp [h]
  · rcases h3 with ⟨-, h⟩ | ⟨-, h | h⟩ <;> simp [h]
  · rintro rfl
    rcases h3 with ⟨-, h⟩ | ⟨h, -⟩
    · exact h
    · exact absurd h (by decide)
  · rintro rfl
    rcases h4 with h | h
    · exact absurd h (by decide)
    · exact h

/-- **C55** Every accepted request resolves to an existing function of the package which does what was asked, and every
other request is refused with `ValueError` — no request builds a name that does not exist. -/
theorem make_pp_resolves (r : Request) :
    (Accepts r → ∃ name, makePP r = .ok (r.interpolant, name) ∧ name ∈ defined r.interpolant ∧
      does name = some ⟨r.interpolant, r.out == "coeffs", r.kind == "1", !r.nans && r.interpolant == "pchip", r.numDepVars == 2⟩) ∧
    (¬ Accepts r → makePP r = .error .value) := by
  refine ⟨fun h => ?_, fun h => ?_⟩
  · obtain ⟨i, hi, k, hk, o, ho, n, hn, d, hd, rfl, h1, h2⟩ := accepted_cases h
    have key : ∀ i ∈ ["linear", "pchip"], ∀ k ∈ ["1", "u"], ∀ o ∈ ["coeffs", "interp"], ∀ n ∈ [true, false], ∀ d ∈ [(1 : Int), 2],
        (o = "coeffs" → d = 1) → (n = false → o = "coeffs" ∧ k = "1") →
        ∃ name ∈ defined i, makePP ⟨i, k, o, n, d⟩ = .ok (i, name) ∧
          does name = some ⟨i, o == "coeffs", k == "1", !n && i == "pchip", d == 2⟩ := by
      decide +kernel
    obtain ⟨name, a, b, c⟩ := key i hi k hk o ho n hn d hd h1 h2
    exact ⟨name, b, a, c⟩
  · by_cases h1 : r.interpolant = "linear" ∨ r.interpolant = "pchip"
    swap
    · simp [makePP, h1]
    by_cases h2 : r.kind = "1" ∨ r.kind = "u"
    swap
    · simp [makePP, h1, h2]
    by_cases h3 : r.out = "coeffs" ∨ r.out = "interp"
    swap
    · simp [makePP, h1, h2, h3]
    by_cases h4 : r.numDepVars = 1 ∨ r.numDepVars = 2
    swap
    · simp [makePP, h1, h2, h3, h4]
    by_cases h5 : r.out = "coeffs" ∧ r.numDepVars ≠ 1
    · simp only [makePP, h1, h2, h3, h4, not_true_eq_false, if_false]
      rw [if_pos h5]
    by_cases h6 : r.nans = false ∧ (r.out = "interp" ∨ r.kind = "u")
    · simp only [makePP, h1, h2, h3, h4, not_true_eq_false, if_false]
      rw [if_neg h5, if_pos h6]
    exfalso
    apply h
    refine ⟨h1, h2, ?_, ?_⟩
    · rcases h3 with a | a
      · exact .inl ⟨a, by by_contra b; exact h5 ⟨a, b⟩⟩
      · exact .inr ⟨a, h4⟩
    · cases hn : r.nans
      · right
        rcases h3 with a | a
        · rcases h2 with b | b
          · exact ⟨a, b⟩
          · exact absurd ⟨hn, .inr b⟩ h6
        · exact absurd ⟨hn, .inl a⟩ h6
      · exact .inl rfl

/-- **C55** Two accepted requests obtain the same function exactly when they ask for the same thing, where for linear
interpolants the no-NaN option makes no difference. -/
theorem make_pp_injective (r r' : Request) (h : Accepts r) (h' : Accepts r') :
    makePP r = makePP r' ↔ r.interpolant = r'.interpolant ∧ r.kind = r'.kind ∧ r.out = r'.out ∧
      r.numDepVars = r'.numDepVars ∧ (r.interpolant = "pchip" → r.nans = r'.nans) := by
  obtain ⟨na, ha, -, da⟩ := (make_pp_resolves r).1 h
  obtain ⟨nb, hb, -, db⟩ := (make_pp_resolves r').1 h'
  constructor
  · intro he
    rw [ha, hb] at he
    obtain ⟨e1, rfl⟩ : r.interpolant = r'.interpolant ∧ na = nb := by simpa using he
    rw [da] at db
    obtain ⟨h1, h2, h3, h4⟩ := h
    obtain ⟨h1', h2', h3', h4'⟩ := h'
    obtain ⟨-, f1, f2, f3, f4⟩ : _ ∧ (r.out == "coeffs") = (r'.out == "coeffs") ∧ (r.kind == "1") = (r'.kind == "1") ∧
        (!r.nans && r.interpolant == "pchip") = (!r'.nans && r'.interpolant == "pchip") ∧
        (r.numDepVars == 2) = (r'.numDepVars == 2) := by simpa using db
    refine ⟨e1, ?_, ?_, ?_, ?_⟩
    · rcases h2 with a | a <;> rcases h2' with b | b <;> rw [a, b] at f2 ⊢ <;> revert f2 <;> decide
    · rcases h3 with ⟨a, -⟩ | ⟨a, -⟩ <;> rcases h3' with ⟨b, -⟩ | ⟨b, -⟩ <;> rw [a, b] at f1 ⊢ <;> revert f1 <;> decide
    · have a : r.numDepVars = 1 ∨ r.numDepVars = 2 := by rcases h3 with ⟨-, a⟩ | ⟨-, a⟩ <;> simp [a]
      have b : r'.numDepVars = 1 ∨ r'.numDepVars = 2 := by rcases h3' with ⟨-, a⟩ | ⟨-, a⟩ <;> simp [a]
      rcases a with a | a <;> rcases b with b | b <;> rw [a, b] at f4 ⊢ <;> revert f4 <;> decide
    · intro hp
      rw [← e1, hp] at f3
      cases hn : r.nans <;> cases hn' : r'.nans <;> simp_all
  · obtain ⟨i, k, o, n, d⟩ := r
    obtain ⟨i', k', o', n', d'⟩ := r'
    rintro ⟨rfl, rfl, rfl, rfl, hn⟩
    dsimp only at hn
    obtain ⟨h1, h2, h3, h4⟩ := h
    obtain ⟨-, -, -, h4'⟩ := h'
    dsimp only at h1 h2 h3 h4 h4'
    rcases h1 with rfl | rfl
    · by_cases hnn : n = n'
      · rw [hnn]
      · have hk : o = "coeffs" ∧ k = "1" := by cases n <;> cases n' <;> simp_all
        simp [makePP, hk]
    · rw [hn rfl]

/-- **C55** The requests issued inside the package — neutral trajectories, potential density, anomaly and omega
surfaces, labels, and the mixed layer — are accepted for both documented interpolants. -/
theorem callers_accepted (i : String) (hi : i = "linear" ∨ i = "pchip") :
    Accepts ⟨i, "1", "coeffs", false, 1⟩ ∧ Accepts ⟨i, "1", "coeffs", true, 1⟩ ∧ Accepts ⟨i, "u", "interp", true, 1⟩ ∧
    Accepts ⟨i, "u", "interp", true, 2⟩ := by
  simp [Accepts, hi]

example : Accepts ⟨"pchip", "1", "coeffs", false, 1⟩ ∧ ¬ Accepts ⟨"pchip", "u", "coeffs", false, 1⟩ := by
  simp [Accepts]

example : (makePP ⟨"pchip", "1", "coeffs", false, 1⟩).toOption = some ("pchip", "pchip_coeffs_1_nonan") := by decide +kernel

/-- **C97** The functions obtained do not all have the same signature: with `kind="u"`, `out="interp"` the pchip function
may be called without the derivative order `d`, which then is zero, but the linear function may not. -/
theorem optional_order_false : ¬ ∀ r name, Accepts r → r.out = "interp" → makePP r = .ok (r.interpolant, name) →
    (required name = 3 ∧ r.numDepVars = 1) ∨ (required name = 4 ∧ r.numDepVars = 2) := by
  intro h
  have := h ⟨"linear", "u", "interp", true, 1⟩ "linear_interp" (by simp [Accepts]) rfl (by decide +kernel)
  revert this
  decide +kernel

/-- **C97** Apart from the two vectorised linear functions, the derivative order is optional. -/
theorem optional_order_partial (r : Request) (h : Accepts r) (ho : r.out = "interp")
    (hp : r.interpolant = "pchip" ∨ r.kind = "1") : ∃ name, makePP r = .ok (r.interpolant, name) ∧
    (required name : Int) = r.numDepVars + 2 := by
  obtain ⟨i, hi, k, hk, o, ho', n, hn, d, hd, rfl, h1, h2⟩ := accepted_cases h
  have key : ∀ i ∈ ["linear", "pchip"], ∀ k ∈ ["1", "u"], ∀ o ∈ ["coeffs", "interp"], ∀ n ∈ [true, false], ∀ d ∈ [(1 : Int), 2],
      (o = "coeffs" → d = 1) → (n = false → o = "coeffs" ∧ k = "1") → o = "interp" → (i = "pchip" ∨ k = "1") →
      ∃ name ∈ defined i, makePP ⟨i, k, o, n, d⟩ = .ok (i, name) ∧ (required name : Int) = d + 2 := by
    decide +kernel
  obtain ⟨name, -, b, c⟩ := key i hi k hk o ho' n hn d hd h1 h2 ho hp
  exact ⟨name, b, c⟩

example : ∃ r : Request, Accepts r ∧ r.out = "interp" ∧ r.kind = "1" ∧ r.numDepVars = 2 :=
  ⟨⟨"linear", "1", "interp", true, 2⟩, by simp [Accepts]⟩

end MakePP
