import Verif.Model.Float

/-! # Model of `/repo/neutralocean/fzero.py` -/

namespace Fzero
open FloatLike

variable {F : Type*} [FloatLike F]

/-- `eps = np.finfo(np.float64).eps`, `/repo/neutralocean/fzero.py` line 9. -/
def eps64 : ℚ := 1 / 2 ^ 52

/-- Local variables of the `while` loop of `brent`, `/repo/neutralocean/fzero.py` lines 83-86. -/
structure BrentSt (F : Type*) where
  (a b c d e fa fb fc : F)

/-- What can happen when a scalar numba function runs: it returns, it raises `ZeroDivisionError`
(numba's default error model for scalar division), it reads an unbound local variable, it accesses an array
outside its bounds (undefined behaviour, numba does not check), or (model artefact) the fuel of the model loop
is used up. -/
inductive Outcome (R : Type*) where
  | ret (r : R)
  | zeroDiv
  | unbound
  | oob
  | outOfFuel
  deriving DecidableEq

/-- Sequencing: continue only after a normal return. -/
def Outcome.bind {R Q : Type*} : Outcome R → (R → Outcome Q) → Outcome Q
  | .ret r, k => k r
  | .zeroDiv, _ => .zeroDiv
  | .unbound, _ => .unbound
  | .oob, _ => .oob
  | .outOfFuel, _ => .outOfFuel

/-- Result of one pass of the loop body of `brent`: `break` returning `b`, next state, or exception. -/
inductive BrentStep (F : Type*) where
  | done (b : F)
  | next (s : BrentSt F)
  | zeroDiv

/-- Lines 89-95 of `/repo/neutralocean/fzero.py`: make `b` the better of the two bracket ends. -/
def brentSwap (s : BrentSt F) : BrentSt F :=
  if lt (abs s.fc) (abs s.fb) then
    { s with a := s.b, b := s.c, c := s.b, fa := s.fb, fb := s.fc, fc := s.fb }
  else s

/-- Is `x == 0`, i.e. would numba's scalar `y / x` raise? -/
def isZero (x : F) : Bool := feq x (lit 0)

/-- Choice of the new `(e, d)`, lines 103-129 of `/repo/neutralocean/fzero.py`; `none` when a scalar
division has a zero divisor. -/
def brentChoose (s : BrentSt F) (tol m : F) : Option (F × F) :=
  if lt (abs s.e) tol || le (abs s.fa) (abs s.fb) then
    some (m, m)
  else
    if isZero s.fa then none else
    let s0 := s.fb / s.fa
    let pq : Option (F × F) :=
      if feq s.a s.c then
        some (lit 2 * m * s0, lit 1 - s0)
      else if isZero s.fc then none else
        let q := s.fa / s.fc
        let r := s.fb / s.fc
        some (s0 * (lit 2 * m * q * (q - r) - (s.b - s.a) * (r - lit 1)),
              (q - lit 1) * (r - lit 1) * (s0 - lit 1))
    match pq with
    | none => none
    | some (p, q) =>
      let q' := if lt (lit 0) p then -q else q
      let p' := if lt (lit 0) p then p else -p
      if lt (lit 2 * p') (lit 3 * m * q' - abs (tol * q')) && lt p' (abs (lit (1/2) * s.e * q')) then
        if isZero q' then none else some (s.d, p' / q')
      else
        some (m, m)

/-- Lines 131-147 of `/repo/neutralocean/fzero.py`: move `b`, evaluate `f`, restore the bracket. -/
def brentMove (f : F → F) (s : BrentSt F) (tol m e d : F) : BrentSt F :=
  let a := s.b
  let fa := s.fb
  let b := if lt tol (abs d) then s.b + d else if lt (lit 0) m then s.b + tol else s.b - tol
  let fb := f b
  if (lt (lit 0) fb && lt (lit 0) s.fc) || (le fb (lit 0) && le s.fc (lit 0)) then
    { a := a, b := b, c := a, d := b - a, e := b - a, fa := fa, fb := fb, fc := fa }
  else
    { a := a, b := b, c := s.c, d := d, e := e, fa := fa, fb := fb, fc := s.fc }

/-- One pass of the loop body of `brent`, `/repo/neutralocean/fzero.py` lines 89-147. -/
def brentStep (f : F → F) (t : F) (s : BrentSt F) : BrentStep F :=
  let s := brentSwap s
  let tol := lit 2 * lit eps64 * abs s.b + t
  let m := lit (1/2) * (s.c - s.b)
  if le (abs m) tol || feq s.fb (lit 0) then .done s.b
  else
    match brentChoose s tol m with
    | none => .zeroDiv
    | some (e, d) => .next (brentMove f s tol m e d)

/-- The `while True` loop of `brent`, `/repo/neutralocean/fzero.py` lines 88-149.
Simplification: at most `fuel` passes (theorem `Fzero.brent_terminates` removes the fuel). -/
def brentLoop (f : F → F) (t : F) : ℕ → BrentSt F → Outcome F
  | 0, _ => .outOfFuel
  | n + 1, s =>
    match brentStep f t s with
    | .done b => .ret b
    | .zeroDiv => .zeroDiv
    | .next s' => brentLoop f t n s'

/-- `brent(f, a, b, t)`, `/repo/neutralocean/fzero.py` lines 43-149.
`f` is the function with its extra `args` already applied. -/
def brent (fuel : ℕ) (f : F → F) (a b t : F) : Outcome F :=
  if isNaN a || isNaN b || lt b a then .ret nan
  else
    let fa := f a
    let fb := f b
    if lt (lit 0) (fa * fb) then .ret nan
    else brentLoop f t fuel
      { a := a, b := b, c := a, d := b - a, e := b - a, fa := fa, fb := fb, fc := fa }

/-- Local variables of the loop of `guess_to_bounds`, `/repo/neutralocean/fzero.py` lines 188-216.
`fapos`/`fbpos` are `none` while the Python variable is unbound. -/
structure GtbSt (F : Type*) where
  (a b dxm dxp : F)
  (fapos fbpos : Option Bool)

/-- Factor by which the search range expands, `/repo/neutralocean/fzero.py` lines 221, 234. -/
def growth : ℚ := 1414213562373095 / 1000000000000000

/-- Result of half a pass of the loop of `guess_to_bounds`. -/
inductive GtbStep (F : Type*) where
  | ret (a b : F)
  | next (s : GtbSt F)
  | unbound

/-- `if fapos != fbpos: return (a, b)` followed by `k`. -/
def gtbTest (s : GtbSt F) (k : GtbStep F) : GtbStep F :=
  match s.fapos, s.fbpos with
  | some p, some q => if p != q then .ret s.a s.b else k
  | _, _ => .unbound

/-- First half of a pass (left end), `/repo/neutralocean/fzero.py` lines 219-230. -/
def gtbLeft (f : F → F) (x A B : F) (s : GtbSt F) : GtbStep F :=
  if lt A s.a then
    let dxm := s.dxm * lit growth
    let a := fmax (x - dxm) A
    let s' : GtbSt F := { s with a := a, dxm := dxm, fapos := some (lt (lit 0) (f a)) }
    gtbTest s' (.next s')
  else if feq s.b B then gtbTest s (.ret nan nan)
  else .next s

/-- Second half of a pass (right end), `/repo/neutralocean/fzero.py` lines 232-243. -/
def gtbRight (f : F → F) (x A B : F) (s : GtbSt F) : GtbStep F :=
  if lt s.b B then
    let dxp := s.dxp * lit growth
    let b := fmin (x + dxp) B
    let s' : GtbSt F := { s with b := b, dxp := dxp, fbpos := some (lt (lit 0) (f b)) }
    gtbTest s' (.next s')
  else if feq s.a A then gtbTest s (.ret nan nan)
  else .next s

/-- The `while True` loop of `guess_to_bounds`, `/repo/neutralocean/fzero.py` lines 218-243.
Simplification: at most `fuel` passes (theorem `Fzero.guessToBounds_spec`). -/
def gtbLoop (f : F → F) (x A B : F) : ℕ → GtbSt F → Outcome (F × F)
  | 0, _ => .outOfFuel
  | n + 1, s =>
    match gtbLeft f x A B s with
    | .ret a b => .ret (a, b)
    | .unbound => .unbound
    | .next s =>
      match gtbRight f x A B s with
      | .ret a b => .ret (a, b)
      | .unbound => .unbound
      | .next s => gtbLoop f x A B n s

/-- Initial loop state, `/repo/neutralocean/fzero.py` lines 190-216 (`x` already clipped). -/
def gtbInit (f : F → F) (x A B : F) : GtbSt F :=
  let dxp := (B - x) / lit 50
  let dxm := (x - A) / lit 50
  let a := if feq dxm (lit 0) then A else x
  let b := if feq dxp (lit 0) then B else x
  if lt A a then
    { a := a, b := b, dxm := dxm, dxp := dxp, fapos := none, fbpos := some (lt (lit 0) (f b)) }
  else if feq b B then
    { a := a, b := b, dxm := dxm, dxp := dxp,
      fapos := some (lt (lit 0) (f a)), fbpos := some (lt (lit 0) (f b)) }
  else
    { a := a, b := b, dxm := dxm, dxp := dxp, fapos := some (lt (lit 0) (f a)), fbpos := none }

/-- `guess_to_bounds(f, x, A, B)`, `/repo/neutralocean/fzero.py` lines 153-243. -/
def guessToBounds (fuel : ℕ) (f : F → F) (x A B : F) : Outcome (F × F) :=
  if feq (f A) (lit 0) then .ret (A, A)
  else if feq (f B) (lit 0) then .ret (B, B)
  else
    let x := fmin (fmax x A) B
    gtbLoop f x A B fuel (gtbInit f x A B)

/-- `brent_guess(f, x, A, B, t)`, `/repo/neutralocean/fzero.py` lines 13-39. -/
def brentGuess (fuel : ℕ) (f : F → F) (x A B t : F) : Outcome F :=
  (guessToBounds fuel f x A B).bind fun ab => brent fuel f ab.1 ab.2 t

end Fzero
