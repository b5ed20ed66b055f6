import Verif.Model.Omega
import Verif.Model.Isopycnal
import Mathlib.Logic.Function.Basic

/-!
# Arrays in shared memory

A call of a function of the library, as a sequence of statements on variables that name arrays (buffers).  Several calls may run in threads; the statements are executed
in any order that respects the order of each thread.
-/

namespace Threads
variable {V F : Type*} [DecidableEq V]

/-- A statement: `x = y` or a view such as `x = np.reshape(y, -1)`, the variables then name the same array; `x = ...` with a new array; `x[...] = ...`, the array named by
`x` is overwritten.  The content assigned has been computed before. -/
inductive Instr (V F : Type*) where
  | name (x y : V)
  | new (x : V) (a : ℕ → F)
  | write (x : V) (a : ℕ → F)

/-- The memory: content of the buffers; those from `next` on are free. -/
structure Mem (F : Type*) where
  buf : ℕ → ℕ → F
  next : ℕ

/-- A statement is executed in an environment, which gives the buffer of each variable. -/
def exec (i : Instr V F) (env : V → ℕ) (m : Mem F) : (V → ℕ) × Mem F :=
  match i with
  | .name x y => (Function.update env x (env y), m)
  | .new x a => (Function.update env x m.next, ⟨Function.update m.buf m.next a, m.next + 1⟩)
  | .write x a => (env, ⟨Function.update m.buf (env x) a, m.next⟩)

/-- A program: from the point of control and the content of its variables, the statements to execute and the next point of control. -/
abbrev Prog (V F C : Type*) := C → (V → ℕ → F) → List (Instr V F) × C

/-- A running call: its variables, the statements left, and the point of control after these. -/
structure Thread (V F C : Type*) where
  env : V → ℕ
  todo : List (Instr V F)
  ctrl : C

/-- One step of a call. -/
def Thread.step {C : Type*} (π : Prog V F C) (m : Mem F) (t : Thread V F C) : Mem F × Thread V F C :=
  match t.todo with
  | i :: l => ((exec i t.env m).2, ⟨(exec i t.env m).1, l, t.ctrl⟩)
  | [] => (m, ⟨t.env, (π t.ctrl fun x => m.buf (t.env x)).1, (π t.ctrl fun x => m.buf (t.env x)).2⟩)

/-- The memory and all running calls. -/
structure Sys (V F : Type*) (C : ℕ → Type*) where
  mem : Mem F
  th : ∀ i, Thread V F (C i)

/-- Call `i` makes a step. -/
def Sys.step {C : ℕ → Type*} (π : ∀ i, Prog V F (C i)) (s : Sys V F C) (i : ℕ) : Sys V F C :=
  ⟨((s.th i).step (π i) s.mem).1, Function.update s.th i ((s.th i).step (π i) s.mem).2⟩

/-- The calls make steps in the order of a schedule. -/
def Sys.run {C : ℕ → Type*} (π : ∀ i, Prog V F (C i)) (s : Sys V F C) (σ : List ℕ) : Sys V F C := σ.foldl (Sys.step π) s

end Threads

namespace OmegaThread
open FloatLike Omega Threads VertSolve
variable {F : Type*} [FloatLike F]

/-- Variables of `omega_surf`: the arrays given by the caller (`S`, `T`, `P`, `p_ml`, `grid["dist"]`, ...; numbered), the initial surface, and the local ones. -/
inductive Var where
  | inp (i : ℕ)
  | pInit
  | pFlat
  | s
  | t
  | p
  | phi
  | pOld
  deriving DecidableEq

/-- Local variables of the loop that are not arrays. -/
structure K (F : Type*) where
  pinP : F
  left : ℕ
  iter : ℕ
  rms : F
  rows : List (Diag F)
  last : ℕ

/-- Points of control of `omega_surf`, `/repo/neutralocean/surface/omega.py` lines 307-474. -/
inductive Ctrl (F : Type*) where
  | start
  | interp (pinP : F)
  | seed (pinP : F)
  | wet (pinP : F)
  | check (pinP : F)
  | first (pinP : F)
  | top (k : K F)
  | region (k : K F)
  | solve (k : K F) (qu : List ℕ) (newly : ℕ)
  | save (k : K F) (qu : List ℕ) (newly : ℕ)
  | heave (k : K F) (qu : List ℕ) (newly : ℕ)
  | pin (k : K F) (qu : List ℕ) (newly : ℕ)
  | close (k : K F) (qu : List ℕ) (newly : ℕ)
  | trim (k : K F)
  | done (rms : F) (rows : List (Diag F)) (last : ℕ)
  | fail (e : Res Empty)

/-- The arrays given by the caller. -/
def given (v : Var → ℕ → F) (i : ℕ) : ℕ → F := v (.inp i)

/-- The surface in the variables. -/
def surf (v : Var → ℕ → F) : Surf F := fun n => (v .s n, v .t n, v .p n)

/-- `s[...], t[...], p[...] = ...` -/
def writeStp (x : Surf F) : List (Instr Var F) :=
  [.write .s fun n => (x n).1, .write .t fun n => (x n).2.1, .write .p fun n => (x n).2.2]

/-- An exception or the next statements. -/
def cont {A : Type*} (r : Res A) (k : A → List (Instr Var F) × Ctrl F) : List (Instr Var F) × Ctrl F :=
  match r with
  | .ok a => k a
  | .indexError => ([], .fail .indexError)
  | .runtimeError => ([], .fail .runtimeError)
  | .unbound => ([], .fail .unbound)
  | .noReturn => ([], .fail .noReturn)

/-- `omega_surf` from line 307 of `/repo/neutralocean/surface/omega.py` on, statement by statement.  `scalar`: the initial pressure if `p_init` is a scalar.  `cfg` is the
configuration made of the content of the caller's arrays; they are read anew in every statement.  Arrays have length `N`; entries beyond are NaN.  The wetting search and
the vertical solve overwrite `s`, `t` and `p` (in the code element by element; here array by array). -/
def prog (cfg : (ℕ → ℕ → F) → Cfg F) (scalar : Option F) : Prog Var F (Ctrl F)
  -- lines 308-312 and 332-334
  | .start, v =>
    match scalar with
    | some q => ([.new .p fun _ => nan, .new .s fun _ => nan, .new .t fun _ => nan, .write .p (Function.update (fun _ => nan) (cfg (given v)).pin q)], .seed q)
    | none => ([.name .pFlat .pInit, .new .p fun n => if n < (cfg (given v)).N then v .pInit n else nan], .interp (v .pInit (cfg (given v)).pin))
  -- line 337
  | .interp q, v =>
    if ∀ n < (cfg (given v)).N, (interpTwo (cfg (given v)) (v .p n) n).isSome then
      ([.new .s fun n => if n < (cfg (given v)).N then ((interpTwo (cfg (given v)) (v .p n) n).getD (nan, nan)).1 else nan,
        .new .t fun n => if n < (cfg (given v)).N then ((interpTwo (cfg (given v)) (v .p n) n).getD (nan, nan)).2 else nan], .check q)
    else ([], .fail .noReturn)
  -- line 315
  | .seed q, v =>
    cont (ofOption (interpTwo (cfg (given v)) q (cfg (given v)).pin)) fun st =>
      ([.write .s (Function.update (v .s) (cfg (given v)).pin st.1), .write .t (Function.update (v .t) (cfg (given v)).pin st.2)], .wet q)
  -- line 318
  | .wet q, v => cont (wetting (cfg (given v)) (surf v)) fun r => (writeStp r.1, .check q)
  -- lines 339-344
  | .check q, v =>
    if isNaN (v .s (cfg (given v)).pin) then ([], .fail .runtimeError)
    else ([.write .p fun n => if isNaN (v .s n) then nan else v .p n], .first q)
  -- lines 346-377
  | .first q, v => ([], .top ⟨q, (cfg (given v)).iterMax, 1, lit 0, if (cfg (given v)).diags then [diag0 (cfg (given v)) (surf v)] else [], 0⟩)
  -- lines 378-383
  | .top k, v =>
    if k.left = 0 then ([], .trim k)
    else (if 1 < k.iter then [.write .p fun n => (removeML (cfg (given v)) k.iter (surf v) n).2.2] else [], .region k)
  -- lines 385-395
  | .region k, v =>
    cont (Omega.region (cfg (given v)) k.iter (surf v)) fun r =>
      (if (cfg (given v)).startWet ≤ k.iter ∧ k.iter ≤ (cfg (given v)).stopWet then writeStp r.1 else [], .solve k r.2.1 r.2.2)
  -- line 400
  | .solve k qu newly, v => cont (ofMat ((cfg (given v)).solver (v .s) (v .t) (v .p) qu (cfg (given v)).pin)) fun phi => ([.new .phi phi], .save k qu newly)
  -- line 405
  | .save k qu newly, v => ([.new .pOld (v .p)], .heave k qu newly)
  -- line 406
  | .heave k qu newly, v =>
    cont (ofOutcome (vertsolveOmega (cfg (given v)).fuel (cfg (given v)).tol (cfg (given v)).kind (cfg (given v)).eos (v .phi) (cfg (given v)).casts (surf v) (cfg (given v)).N)) fun x => (writeStp x, .pin k qu newly)
  -- line 413
  | .pin k qu newly, v => ([.write .p (Function.update (v .p) (cfg (given v)).pin k.pinP)], .close k qu newly)
  -- lines 418-461
  | .close k qu newly, v =>
    let r : Iter F := ⟨fun n => (nan, nan, v .pOld n), surf v, qu, v .phi, newly⟩
    let rms := dpRMS (cfg (given v)) k.rms r
    let rows := if (cfg (given v)).diags then k.rows ++ [diagOf (cfg (given v)) rms r] else k.rows
    if converged (cfg (given v)) k.iter r rms then ([], .trim ⟨k.pinP, 0, k.iter, rms, rows, k.iter⟩)
    else ([], .top ⟨k.pinP, k.left - 1, k.iter + 1, rms, rows, k.iter⟩)
  -- lines 463-474
  | .trim k, v => if (cfg (given v)).diags && decide (k.last = 0) then ([], .fail .unbound) else ([], .done k.rms k.rows k.last)
  | .done rms rows last, _ => ([], .done rms rows last)
  | .fail e, _ => ([], .fail e)

end OmegaThread

namespace IsoThread
open FloatLike Threads VertSolve Traj OmegaThread
variable {F : Type*} [FloatLike F]

/-- Arguments of `_isopycnal` that are not arrays, and the casts made of the content of the arrays given. -/
structure Args (F : Type*) where
  fuel : ℕ
  tol : F
  kind : PPKind
  eos : F → F → F → F
  ty : Isopycnal.Ans
  ref : Isopycnal.RefArg F
  iso : Option F
  pinCast : Option ℤ
  pinP : Isopycnal.PinP F
  casts : (ℕ → ℕ → F) → ℕ → Cast F
  N : ℕ

/-- Points of control of `_isopycnal`, `/repo/neutralocean/surface/isopycnal.py` lines 336-411. -/
inductive Ctrl (F : Type*) where
  | start
  | solve (ref : Isopycnal.RefArg F) (iso : F)
  | pin (ref : Isopycnal.RefArg F) (iso : F)
  | done (ref : Isopycnal.RefArg F) (iso : F)
  | fail (e : Isopycnal.Res Empty)

/-- An exception or the next statements. -/
def cont {A : Type*} (r : Isopycnal.Res A) (k : A → List (Instr Var F) × Ctrl F) : List (Instr Var F) × Ctrl F :=
  match r with
  | .ok a => k a
  | .typeError => ([], .fail .typeError)
  | .valueError => ([], .fail .valueError)
  | .typingError => ([], .fail .typingError)
  | .noReturn => ([], .fail .noReturn)

/-- `_isopycnal`, `/repo/neutralocean/surface/isopycnal.py` lines 336-411, statement by statement, as `Isopycnal.isopycnal`. -/
def prog (a : Args F) : Prog Var F (Ctrl F)
  -- lines 336-375
  | .start, v =>
    cont ((Isopycnal.checkRef a.ty a.ref a.iso a.pinCast a.pinP a.N).bind fun _ =>
      Isopycnal.choose a.kind a.eos a.ty a.ref a.iso (Isopycnal.pinOf (a.casts (given v)) (a.pinCast.bind (Lib.npIdx a.N)) a.pinP)) fun ri => ([], .solve ri.1 ri.2)
  -- line 379; `s`, `t`, `p` are made in lines 41-43 of `/repo/neutralocean/surface/_vertsolve.py`
  | .solve ref iso, v =>
    cont (Isopycnal.solve a.fuel a.tol a.kind a.eos a.ty ref iso (a.casts (given v)) a.N) fun x =>
      ([.new .s fun n => (x n).1, .new .t fun n => (x n).2.1, .new .p fun n => (x n).2.2], .pin ref iso)
  -- lines 381-390
  | .pin ref iso, v =>
    match a.pinP with
    | .float q =>
      match a.pinCast.bind (Lib.npIdx a.N) with
      | some n =>
        cont (Isopycnal.pinST a.kind (a.casts (given v) n) q) fun st =>
          ([.write .p (Function.update (v .p) n q), .write .s (Function.update (v .s) n st.1), .write .t (Function.update (v .t) n st.2)], .done ref iso)
      | none => ([], .fail .typingError)
    | _ => ([], .done ref iso)
  | .done ref iso, _ => ([], .done ref iso)
  | .fail e, _ => ([], .fail e)

end IsoThread

namespace TrajThread
open FloatLike Threads Fzero Traj OmegaThread
variable {F : Type*} [FloatLike F]

/-- Arguments of `neutral_trajectory` that are not arrays, and the casts made of the content of the arrays given. -/
structure Args (F : Type*) where
  fuel : ℕ
  tol : F
  kind : PPKind
  eos : F → F → F → F
  p0 : F
  casts : (ℕ → ℕ → F) → ℕ → Cast F
  N : ℕ

/-- Points of control of `neutral_trajectory`, `/repo/neutralocean/traj.py` lines 260-304. -/
inductive Ctrl.{u} (F : Type u) : Type u where
  | start
  | body (c : ℕ)
  | test (c : ℕ)
  | done
  | fail (e : Outcome Empty)

/-- An exception or the next statements. -/
def cont {A : Type*} (r : Outcome A) (k : A → List (Instr Var F) × Ctrl F) : List (Instr Var F) × Ctrl F :=
  match r with
  | .ret a => k a
  | .zeroDiv => ([], .fail .zeroDiv)
  | .unbound => ([], .fail .unbound)
  | .oob => ([], .fail .oob)
  | .outOfFuel => ([], .fail .outOfFuel)

/-- `neutral_trajectory`, `/repo/neutralocean/traj.py` lines 260-304, statement by statement, as `Traj.neutralTrajectory`: the previous bottle is read back from the arrays of the result. -/
def prog (a : Args F) : Prog Var F (Ctrl F)
  -- lines 267-269
  | .start, _ => ([.new .s fun _ => nan, .new .t fun _ => nan, .new .p fun _ => nan], .body 0)
  -- lines 272-298
  | .body c, v =>
    if c < a.N then
      cont (if c = 0 then trajStart a.kind a.p0 (a.casts (given v) c)
        else ntpBottleToCast a.fuel a.tol a.eos a.kind (v .s (c - 1)) (v .t (c - 1)) (v .p (c - 1)) (a.casts (given v) c)) fun b =>
        ([.write .s (Function.update (v .s) c b.1), .write .t (Function.update (v .t) c b.2.1), .write .p (Function.update (v .p) c b.2.2)], .test c)
    else ([], .done)
  -- lines 300-302
  | .test c, v => if isNaN (v .p c) then ([], .done) else ([], .body (c + 1))
  | .done, _ => ([], .done)
  | .fail e, _ => ([], .fail e)

end TrajThread

namespace SurfThread
open FloatLike Omega Threads OmegaThread
variable {F : Type*} [FloatLike F]

/-- A call of `omega_surf`, of `potential_surf` or `anomaly_surf`, or of `neutral_trajectory`. -/
inductive Job (F : Type*) where
  | omega (cfg : (ℕ → ℕ → F) → Cfg F) (scalar : Option F)
  | isopycnal (a : IsoThread.Args F)
  | trajectory (a : TrajThread.Args F)

/-- Its points of control. -/
def Job.Ctrl : Job F → Type _
  | .omega _ _ => OmegaThread.Ctrl F
  | .isopycnal _ => IsoThread.Ctrl F
  | .trajectory _ => TrajThread.Ctrl F

/-- Where it starts. -/
def Job.start : ∀ j : Job F, j.Ctrl
  | .omega _ _ => OmegaThread.Ctrl.start
  | .isopycnal _ => IsoThread.Ctrl.start
  | .trajectory _ => TrajThread.Ctrl.start

/-- Its statements. -/
def Job.prog : ∀ j : Job F, Prog Var F j.Ctrl
  | .omega cfg scalar => OmegaThread.prog cfg scalar
  | .isopycnal a => IsoThread.prog a
  | .trajectory a => TrajThread.prog a

end SurfThread
