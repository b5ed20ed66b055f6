import Verif.Model.Traj

/-! # Model of `/repo/neutralocean/surface/_vertsolve.py` -/

namespace VertSolve
open FloatLike Fzero Interp Traj
variable {F : Type*} [FloatLike F]

/-- `_zero_potential`, `/repo/neutralocean/surface/_vertsolve.py` lines 138-141. -/
def zeroPotential (eos : F → F → F → F) (P : Arr F) (Sppc Tppc : PPC F) (refP isoval : F) (p : F) : F :=
  let st := ppval1NonanTwo p P Sppc Tppc 0
  eos st.1 st.2 refP - isoval

/-- `_zero_anomaly`, `/repo/neutralocean/surface/_vertsolve.py` lines 145-149. -/
def zeroAnomaly (eos : F → F → F → F) (P : Arr F) (Sppc Tppc : PPC F) (ref : F × F) (isoval : F) (p : F) : F :=
  let st := ppval1NonanTwo p P Sppc Tppc 0
  eos st.1 st.2 p - eos ref.1 ref.2 p - isoval

/-- Body of the loop of `_vertsolve` for one cast, `/repo/neutralocean/surface/_vertsolve.py` lines 47-76; `zf` is
`zero_func` with `ref`, `d0`, `eos` applied. -/
def vertsolve1 (fuel : ℕ) (tol : F) (kind : PPKind) (zf : Arr F → PPC F → PPC F → F → F) (c : Cast F) :
    Outcome (F × F × F) :=
  let kK := validRange2 c.S c.P
  if 1 < kK.2 - kK.1 then
    let P := c.P.slice kK.1 kK.2
    match ppcFn kind P (c.S.slice kK.1 kK.2), ppcFn kind P (c.T.slice kK.1 kK.2) with
    | some Sppc, some Tppc =>
      let f := zf P Sppc Tppc
      let pn := (P.get 0 + P.get (P.size - 1)) * lit (1/2)
      (guessToBounds fuel f pn (P.get 0) (P.get (P.size - 1))).bind fun ab =>
        if isFinite ab.1 then
          (brent fuel f ab.1 ab.2 tol).bind fun p =>
            let st := ppval1NonanTwo p P Sppc Tppc 0
            .ret (st.1, st.2, p)
        else .ret (nan, nan, nan)
    | _, _ => .zeroDiv
  else .ret (nan, nan, nan)

/-- The loop of `_vertsolve` over the casts `0, ..., N-1` (the 2D index flattened),
`/repo/neutralocean/surface/_vertsolve.py` lines 42-78: arrays start as NaN and entry `n` is written in pass `n`. -/
def vertsolve (fuel : ℕ) (tol : F) (kind : PPKind) (zf : Arr F → PPC F → PPC F → F → F) (casts : ℕ → Cast F) :
    ℕ → Outcome (ℕ → F × F × F)
  | 0 => .ret fun _ => (nan, nan, nan)
  | N + 1 =>
    (vertsolve fuel tol kind zf casts N).bind fun stp =>
      (vertsolve1 fuel tol kind zf (casts N)).bind fun r => .ret (Function.update stp N r)

/-- Body of the loop of `_vertsolve_omega` for one cast, `/repo/neutralocean/surface/_vertsolve.py` lines 85-132:
`b = (s[n], t[n], p[n])` is replaced. -/
def omegaSolve1 (fuel : ℕ) (tol : F) (kind : PPKind) (eos : F → F → F → F) (phi : F) (b : F × F × F) (c : Cast F) :
    Outcome (F × F × F) :=
  if feq phi (lit 0) then .ret b
  else
    let kK := validRange2 c.S c.P
    if 1 < kK.2 - kK.1 ∧ isFinite phi = true then
      let P := c.P.slice kK.1 kK.2
      match ppcFn kind P (c.S.slice kK.1 kK.2), ppcFn kind P (c.T.slice kK.1 kK.2) with
      | some Sppc, some Tppc =>
        let f := zeroPotential eos P Sppc Tppc b.2.2 (eos b.1 b.2.1 b.2.2 + phi)
        (guessToBounds fuel f b.2.2 (P.get 0) (P.get (P.size - 1))).bind fun ab =>
          if isFinite ab.1 then
            (brent fuel f ab.1 ab.2 tol).bind fun p =>
              let st := ppval1NonanTwo p P Sppc Tppc 0
              .ret (st.1, st.2, p)
          else .ret (nan, nan, nan)
      | _, _ => .zeroDiv
    else .ret (nan, nan, nan)

/-- The loop of `_vertsolve_omega`, `/repo/neutralocean/surface/_vertsolve.py` lines 82-134. -/
def vertsolveOmega (fuel : ℕ) (tol : F) (kind : PPKind) (eos : F → F → F → F) (phi : ℕ → F) (casts : ℕ → Cast F)
    (stp : ℕ → F × F × F) : ℕ → Outcome (ℕ → F × F × F)
  | 0 => .ret stp
  | N + 1 =>
    (vertsolveOmega fuel tol kind eos phi casts stp N).bind fun stp' =>
      (omegaSolve1 fuel tol kind eos (phi N) (stp' N) (casts N)).bind fun r => .ret (Function.update stp' N r)

end VertSolve
