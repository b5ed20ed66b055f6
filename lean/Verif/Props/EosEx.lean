import Verif.Props.EosBox
import Verif.Props.EosGswc

/-!
# The theorems on the equations of state applied to sea water
-/

open FloatLike
open Fl hiding nan

namespace Jmd95

/-- Sea water of salinity 35, 10 degrees, 2000 dbar. -/
example : ∃ a b c : ℝ, rhoST (Fl.fin 35) (.fin 10) (.fin (2000 : ℝ)) = some (.fin a, .fin b) ∧ rhoP (Fl.fin 35) (.fin 10) (.fin (2000 : ℝ)) = some (.fin c) ∧
    HasDerivWithinAt (fun s => density s 10 2000) a (Set.Ici 0) 35 ∧ HasDerivAt (fun t => density 35 t 2000) b 10 ∧
    HasDerivAt (fun p => density 35 10 p) c 2000 := by
  have O : Ocean 35 10 2000 := ⟨by norm_num, by norm_num, by norm_num, by norm_num, by norm_num, by norm_num⟩
  obtain ⟨a, b, h1, h2, h3⟩ := rhoST_derivatives (s := 35) (by norm_num) O.ne.1 O.ne.2
  obtain ⟨c, h4, h5⟩ := rhoP_derivative (s := 35) (by norm_num) O.ne.1 O.ne.2
  exact ⟨a, b, c, h1, h4, h2, h3, h5⟩

/-- A negative salinity gives `nan`. -/
example : rho (Fl.fin (-1)) (.fin 10) (.fin (2000 : ℝ)) = some Fl.nan := jmd95_nan _ _ _ (by simp)

end Jmd95

namespace Jmdfwg06

/-- Sea water of salinity 35, 10 degrees, 2000 dbar. -/
example : ∃ a b c : ℝ, rho (Fl.fin 35) (.fin 10) (.fin (2000 : ℝ)) = some (.fin (density 35 10 2000)) ∧
    rhoST (Fl.fin 35) (.fin 10) (.fin (2000 : ℝ)) = some (.fin a, .fin b) ∧ rhoP (Fl.fin 35) (.fin 10) (.fin (2000 : ℝ)) = some (.fin c) ∧
    HasDerivWithinAt (fun s => density s 10 2000) a (Set.Ici 0) 35 ∧ HasDerivAt (fun t => density 35 t 2000) b 10 ∧
    HasDerivAt (fun p => density 35 10 p) c 2000 := by
  have O : Ocean 35 10 2000 := ⟨by norm_num, by norm_num, by norm_num, by norm_num, by norm_num, by norm_num⟩
  have hD : D 35 10 2000 ≠ 0 := O.bounds.1.ne'
  obtain ⟨a, b, h1, h2, h3⟩ := rhoST_derivatives (s := 35) (by norm_num) hD
  obtain ⟨c, h4, h5⟩ := rhoP_derivative (s := 35) (by norm_num) hD
  exact ⟨a, b, c, rho_eq (by norm_num) hD, h1, h4, h2, h3, h5⟩

/-- A negative salinity gives `nan`. -/
example : rho (Fl.fin (-1)) (.fin 10) (.fin (2000 : ℝ)) = some Fl.nan := jmdfwg06_nan _ _ _ (by simp)

end Jmdfwg06

namespace Gsw

/-- A negative absolute salinity counts as zero in the specific volume, but not in its derivative. -/
example : specvol (Fl.fin (-1)) (.fin 10) (.fin (2000 : ℝ)) = specvol (Fl.fin 0) (.fin 10) (.fin 2000) ∧
    ∃ V : ℝ → ℝ, ∃ a b : ℝ, HasDerivAt V 0 (-1) ∧ specvolST (Fl.fin (-1)) (.fin 0) (.fin (0 : ℝ)) = some (.fin a, .fin b) ∧ a < 0 := by
  obtain ⟨V, a, b, -, h1, h2, h3⟩ := gsw_negative_derivative_false (SA := -1) (by norm_num)
  exact ⟨(gsw_negative (by norm_num) _ _).1, V, a, b, h1, h2, h3⟩

end Gsw

namespace Gswc

/-- A library whose density is `1000 + s - t/5 + p/200`, its derivative per Pa in pressure. -/
noncomputable def exLib : Fl ℝ → Fl ℝ → Fl ℝ → Fl ℝ × Fl ℝ × Fl ℝ := fun _ _ _ => (fin 1, fin (-(1 / 5)), fin (1 / 10000 / 200))

example : ∃ rs rt rp : ℝ, rhoST exLib (fin 35) (fin 10) (fin 2000) = (fin rs, fin rt) ∧ rhoP exLib (fin 35) (fin 10) (fin 2000) = fin rp ∧
    HasDerivAt (fun x : ℝ => 1000 + 35 - 10 / 5 + x / 200) rp 2000 := by
  obtain ⟨rs, rt, rp, h1, h2, -, -, h5⟩ := gswc_derivatives (rho := fun s t p => 1000 + s - t / 5 + p / 200) (fd := exLib) (s := 35) (t := 10) (p := 2000)
    ⟨1, -(1 / 5), 1 / 10000 / 200, rfl, (((hasDerivAt_id (35 : ℝ)).const_add 1000).sub_const (10 / 5)).add_const (2000 / 200),
      (((hasDerivAt_id (10 : ℝ)).div_const 5).const_sub (1000 + 35)).add_const (2000 / 200),
      (((hasDerivAt_id (10000 * 2000 : ℝ)).div_const 10000).div_const 200).const_add (1000 + 35 - 10 / 5)⟩
  exact ⟨rs, rt, rp, h1, h2, h5⟩

end Gswc
