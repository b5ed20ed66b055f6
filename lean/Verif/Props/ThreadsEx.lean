import Verif.Props.OmegaThreads
import Verif.Props.Omega

/-!
# Example: two surfaces and a trajectory of the same data, computed in three threads (C169)
-/

namespace SurfThread
open FloatLike Omega Threads OmegaThread

/-- Two casts of four bottles in three arrays: salinity, temperature, pressure. -/
def exCasts (a : ℕ → ℕ → Fl ℚ) (n : ℕ) : _root_.Cast (Fl ℚ) :=
  ⟨⟨4, fun i => a 0 (4 * n + i)⟩, ⟨4, fun i => a 1 (4 * n + i)⟩, ⟨4, fun i => a 2 (4 * n + i)⟩⟩

/-- The memory: salinity increases with depth, and is higher on the second cast; buffer 3 is an initial surface. -/
def exMem : Mem (Fl ℚ) where
  buf b j := if b = 0 then .fin ((j % 4 : ℕ) + (j / 4 : ℕ)) else if b = 2 then .fin (j % 4 : ℕ) else if b = 3 then .fin 2 else .fin 0
  next := 4

/-- Call 0 is for an omega surface, call 2 for the neutral trajectory from 3/2 on the first cast, the others are for the isopycnal through 3/2 at the first cast. -/
def exJob (i : ℕ) : Job (Fl ℚ) :=
  if i = 0 then .omega (fun a => { demo .ninf 2 with casts := exCasts a }) none
  else if i = 2 then .trajectory ⟨200, .fin (1/100), .linear, fun s _ _ => s, .fin (3/2), exCasts, 2⟩
  else .isopycnal ⟨200, .fin (1/100), .linear, fun s _ _ => s, .potential, .none, none, some 0, .float (.fin (3/2)), exCasts, 2⟩

/-- The variables name the arrays of the caller; those not assigned yet, any. -/
def exEnv : Var → ℕ
  | .inp 0 => 0
  | .inp 1 => 1
  | .inp 2 => 2
  | .pInit => 3
  | _ => 0

/-- The start. -/
def exSys : Sys Var (Fl ℚ) fun i => (exJob i).Ctrl := ⟨exMem, fun i => ⟨exEnv, [], (exJob i).start⟩⟩

theorem exSys_starts : Starts (fun i => (exJob i).start) 4 exSys := by
  refine ⟨fun i x => ?_, fun _ => rfl, fun _ => rfl, le_rfl⟩
  show exEnv x < 4
  unfold exEnv
  split <;> omega

theorem ex_omega : (match omega ({ demo .ninf 2 with casts := exCasts fun i => exMem.buf (exEnv (.inp i)) } : Cfg (Fl ℚ)) (.array (exMem.buf 3)) with
    | .ok s => some ((s.stp 0).2.2, (s.stp 1).2.2) | _ => none) = some (Fl.fin 2, Fl.fin 1) := by decide +kernel

theorem ex_iso : (match Isopycnal.isopycnal 200 (Fl.fin (1/100)) .linear (fun s _ _ => s) .potential .none none (some 0) (.float (.fin (3/2)))
      (exCasts fun i => exMem.buf (exEnv (.inp i))) 2 with
    | .ok x => some ((x.1 0).2.2, (x.1 1).2.2) | _ => none) = some (Fl.fin (3/2), Fl.fin (1/2)) := by decide +kernel

theorem ex_traj : (match Traj.neutralTrajectory 200 (Fl.fin (1/100)) (fun s _ _ => s) .linear (.fin (3/2)) ((List.range 2).map (exCasts fun i => exMem.buf (exEnv (.inp i)))) with
    | .ret l => some ((l.getD 0 (nan, nan, nan)).2.2, (l.getD 1 (nan, nan, nan)).2.2) | _ => none) = some (Fl.fin (3/2), Fl.fin (1/2)) := by decide +kernel

theorem ended_omega {m : Mem (Fl ℚ)} {cfg scalar} {v : Var → ℕ → Fl ℚ} {t} (h : Ended m (.omega cfg scalar) v t) {st} (h' : omega (cfg fun i => v (.inp i)) (pInitOf scalar v) = .ok st) (n : ℕ) :
    (m.buf (t.env .s) n, m.buf (t.env .t) n, m.buf (t.env .p) n) = st.stp n := by
  obtain ⟨_, h⟩ := h
  rw [h'] at h
  exact h.2 n

theorem ended_iso {m : Mem (Fl ℚ)} {a : IsoThread.Args (Fl ℚ)} {v : Var → ℕ → Fl ℚ} {t} (h : Ended m (.isopycnal a) v t) {x}
    (h' : Isopycnal.isopycnal a.fuel a.tol a.kind a.eos a.ty a.ref a.iso a.pinCast a.pinP (a.casts fun i => v (.inp i)) a.N = .ok x) (n : ℕ) :
    (m.buf (t.env .s) n, m.buf (t.env .t) n, m.buf (t.env .p) n) = x.1 n := by
  obtain ⟨_, h⟩ := h
  rw [h'] at h
  exact h.2 n

theorem ended_traj {m : Mem (Fl ℚ)} {a : TrajThread.Args (Fl ℚ)} {v : Var → ℕ → Fl ℚ} {t} (h : Ended m (.trajectory a) v t) {l}
    (h' : Traj.neutralTrajectory a.fuel a.tol a.eos a.kind a.p0 ((List.range a.N).map (a.casts fun i => v (.inp i))) = .ret l) (n : ℕ) :
    (m.buf (t.env .s) n, m.buf (t.env .t) n, m.buf (t.env .p) n) = l.getD n (nan, nan, nan) := by
  obtain ⟨_, h⟩ := h
  rw [h'] at h
  exact h.2 n

/-- Whatever the schedule, once both calls have had enough steps, the omega surface is at 2 and 1, the isopycnal at 3/2 and 1/2, and the data are as before. -/
example : ∃ m, ∀ σ : List ℕ, m ≤ σ.count 0 → m ≤ σ.count 1 →
    let S := exSys.run (fun i => (exJob i).prog) σ
    S.mem.buf ((S.th 0).env .p) 0 = .fin 2 ∧ S.mem.buf ((S.th 0).env .p) 1 = .fin 1 ∧
    S.mem.buf ((S.th 1).env .p) 0 = .fin (3/2) ∧ S.mem.buf ((S.th 1).env .p) 1 = .fin (1/2) ∧
    ∀ b < 4, S.mem.buf b = exMem.buf b := by
  obtain ⟨m0, h0⟩ := calls_isolated exSys_starts 0
  obtain ⟨m1, h1⟩ := calls_isolated exSys_starts 1
  refine ⟨max m0 m1, fun σ a b => ?_⟩
  have h0 := h0 σ ((le_max_left _ _).trans a)
  have h1 := h1 σ ((le_max_right _ _).trans b)
  have e0 := ex_omega
  have e1 := ex_iso
  split at e0
  case h_2 => exact absurd e0 (by simp)
  rename_i st hst
  have h0 := ended_omega (scalar := none) h0 hst
  split at e1
  case h_2 => exact absurd e1 (by simp)
  rename_i x hx
  have h1 := ended_iso h1 hx
  simp only [Option.some.injEq, Prod.mk.injEq] at e0 e1
  refine ⟨?_, ?_, ?_, ?_, fun b hb => inputs_unchanged exSys_starts σ hb⟩
  · rw [← e0.1, ← h0 0]
  · rw [← e0.2, ← h0 1]
  · rw [← e1.1, ← h1 0]
  · rw [← e1.2, ← h1 1]

/-- Likewise the trajectory is at 3/2 and 1/2. -/
example : ∃ m, ∀ σ : List ℕ, m ≤ σ.count 2 →
    let S := exSys.run (fun i => (exJob i).prog) σ
    S.mem.buf ((S.th 2).env .p) 0 = .fin (3/2) ∧ S.mem.buf ((S.th 2).env .p) 1 = .fin (1/2) := by
  obtain ⟨m, h⟩ := calls_isolated exSys_starts 2
  refine ⟨m, fun σ a => ?_⟩
  have h := h σ a
  have e := ex_traj
  split at e
  case h_2 => exact absurd e (by simp)
  rename_i l hl
  have h := ended_traj h hl
  simp only [Option.some.injEq, Prod.mk.injEq] at e
  exact ⟨by rw [← e.1, ← h 0], by rw [← e.2, ← h 1]⟩

/-- There are schedules under which the first call returns. -/
example : ∃ σ : List ℕ, Returned (exJob 0) ((exSys.run (fun i => (exJob i).prog) σ).th 0) := by
  obtain ⟨m, h⟩ := calls_isolated exSys_starts 0
  have h := h (List.replicate m 0) (by rw [List.count_replicate_self])
  refine ⟨List.replicate m 0, ?_⟩
  have e0 := ex_omega
  split at e0
  case h_2 => exact absurd e0 (by simp)
  rename_i st hst
  obtain ⟨h1, h2⟩ : _ ∧ _ := h
  refine ⟨h1, st.rms, st.rows, st.last, ?_⟩
  have h3 : omega ({ demo .ninf 2 with casts := exCasts fun i => exMem.buf (exEnv (.inp i)) } : Cfg (Fl ℚ)) (.array (exMem.buf 3)) = .ok st → _ := fun e => by
    erw [e] at h2
    exact h2.1
  exact h3 hst

end SurfThread
