import Verif.Model.Threads
set_option linter.unusedSectionVars false

/-!
# Calls in threads (C169)
-/

namespace Threads
variable {V F : Type*} [DecidableEq V]

/-- The arrays owned: those made by the call itself. -/
def own (O : V → Bool) : Instr V F → V → Bool
  | .name x _ => Function.update O x false
  | .new x _ => Function.update O x true
  | .write _ _ => O

/-- A statement that writes only to arrays owned, and makes no second name for these. -/
def Safe (O : V → Bool) : Instr V F → Prop
  | .name _ y => O y = false
  | .new _ _ => True
  | .write x _ => O x = true

def ownL (O : V → Bool) : List (Instr V F) → V → Bool
  | [] => O
  | i :: l => ownL (own O i) l

def SafeL (O : V → Bool) : List (Instr V F) → Prop
  | [] => True
  | i :: l => Safe O i ∧ SafeL (own O i) l

/-- All statements of a program are safe; `I` says what is owned at each point of control. -/
structure Disciplined {C : Type*} (π : Prog V F C) (c0 : C) (I : C → (V → Bool) → Prop) : Prop where
  start : I c0 fun _ => false
  step : ∀ c O, I c O → ∀ v, SafeL O (π c v).1 ∧ I (π c v).2 (ownL O (π c v).1)

/-- A call by itself: content of its variables instead of buffers. -/
structure VThread (V F C : Type*) where
  val : V → ℕ → F
  todo : List (Instr V F)
  ctrl : C

def vexec (v : V → ℕ → F) : Instr V F → V → ℕ → F
  | .name x y => Function.update v x (v y)
  | .new x a => Function.update v x a
  | .write x a => Function.update v x a

def VThread.step {C : Type*} (π : Prog V F C) (t : VThread V F C) : VThread V F C :=
  match t.todo with
  | i :: l => ⟨vexec t.val i, l, t.ctrl⟩
  | [] => ⟨t.val, (π t.ctrl t.val).1, (π t.ctrl t.val).2⟩

variable {C : ℕ → Type*} {π : ∀ i, Prog V F (C i)}

/-- What a thread and the call by itself have in common. -/
structure Sim {D : Type*} (m : Mem F) (t : Thread V F D) (w : VThread V F D) : Prop where
  val : ∀ x, m.buf (t.env x) = w.val x
  todo : t.todo = w.todo
  ctrl : t.ctrl = w.ctrl

/-- The invariant. -/
structure Inv (π : ∀ i, Prog V F (C i)) (I : ∀ i, C i → (V → Bool) → Prop) (h0 : ℕ → ℕ → F) (base : ℕ) (s : Sys V F C) (w : ∀ i, VThread V F (C i))
    (O : ℕ → V → Bool) : Prop where
  inputs : ∀ b < base, s.mem.buf b = h0 b
  next : base ≤ s.mem.next
  mine : ∀ i x, O i x = true → base ≤ (s.th i).env x ∧ (s.th i).env x < s.mem.next
  given : ∀ i x, O i x = false → (s.th i).env x < base
  apart : ∀ i x j y, O i x = true → O j y = true → (s.th i).env x = (s.th j).env y → i = j ∧ x = y
  safe : ∀ i, SafeL (O i) (s.th i).todo
  inv : ∀ i, I i (s.th i).ctrl (ownL (O i) (s.th i).todo)
  sim : ∀ i, Sim s.mem (s.th i) (w i)

variable {I : ∀ i, C i → (V → Bool) → Prop} {h0 : ℕ → ℕ → F} {base : ℕ}

theorem Inv.step (hI : ∀ i c O, I i c O → ∀ v, SafeL O (π i c v).1 ∧ I i (π i c v).2 (ownL O (π i c v).1)) {s : Sys V F C} {w : ∀ i, VThread V F (C i)}
    {O : ℕ → V → Bool} (h : Inv π I h0 base s w O) (i : ℕ) :
    ∃ O', Inv π I h0 base (s.step π i) (Function.update w i ((w i).step (π i))) O' := by
  obtain ⟨sv, st, sc⟩ := h.sim i
  cases hT : (s.th i).todo with
  | nil =>
    have hs : (s.th i).step (π i) s.mem = (s.mem, ⟨(s.th i).env, (π i (s.th i).ctrl fun x => s.mem.buf ((s.th i).env x)).1, (π i (s.th i).ctrl fun x => s.mem.buf ((s.th i).env x)).2⟩) := by
      unfold Thread.step; rw [hT]
    have hw : (w i).step (π i) = ⟨(w i).val, (π i (w i).ctrl (w i).val).1, (π i (w i).ctrl (w i).val).2⟩ := by
      unfold VThread.step; rw [← st, hT]
    have hv : (fun x => s.mem.buf ((s.th i).env x)) = (w i).val := funext sv
    have henv : ∀ j, ((s.step π i).th j).env = (s.th j).env := by
      intro j
      unfold Sys.step
      by_cases hj : j = i
      · subst hj; simp [hs]
      · simp [hj]
    have hmem : (s.step π i).mem = s.mem := by unfold Sys.step; rw [hs]
    have hi := hI i _ _ (h.inv i) (w i).val
    rw [hT] at hi
    refine ⟨O, by rw [hmem]; exact h.inputs, by rw [hmem]; exact h.next, fun j x => by rw [hmem, henv]; exact h.mine j x, fun j x => by rw [henv]; exact h.given j x,
      fun j x k y => by rw [henv, henv]; exact h.apart j x k y, fun j => ?_, fun j => ?_, fun j => ?_⟩
    · by_cases hj : j = i
      · subst hj
        simp only [Sys.step, Function.update_self, hs, hv]
        exact hi.1
      · simp only [Sys.step, Function.update_of_ne hj]; exact h.safe j
    · by_cases hj : j = i
      · subst hj
        simp only [Sys.step, Function.update_self, hs, hv]
        exact hi.2
      · simp only [Sys.step, Function.update_of_ne hj]; exact h.inv j
    · by_cases hj : j = i
      · subst hj
        simp only [Sys.step, Function.update_self, hs, hw]
        exact ⟨sv, by rw [hv, sc], by rw [hv, sc]⟩
      · rw [hmem]
        simp only [Sys.step, Function.update_of_ne hj]; exact h.sim j
  | cons a l =>
    have hs : (s.th i).step (π i) s.mem = ((exec a (s.th i).env s.mem).2, ⟨(exec a (s.th i).env s.mem).1, l, (s.th i).ctrl⟩) := by
      unfold Thread.step; rw [hT]
    have hw : (w i).step (π i) = ⟨vexec (w i).val a, l, (w i).ctrl⟩ := by
      unfold VThread.step; rw [← st, hT]
    have hmem : (s.step π i).mem = (exec a (s.th i).env s.mem).2 := by unfold Sys.step; rw [hs]
    have hthi : (s.step π i).th i = ⟨(exec a (s.th i).env s.mem).1, l, (s.th i).ctrl⟩ := by simp only [Sys.step, hs, Function.update_self]
    have hthj : ∀ j, j ≠ i → (s.step π i).th j = s.th j := fun j hj => by simp only [Sys.step, Function.update_of_ne hj]
    have hsafe := h.safe i
    have hinv := h.inv i
    rw [hT] at hsafe hinv
    obtain ⟨hsa, hsl⟩ := hsafe
    -- what remains in terms of the three kinds of statements
    have fin : ∀ O' : ℕ → V → Bool, O' = Function.update O i (own (O i) a) →
        (∀ b < base, (exec a (s.th i).env s.mem).2.buf b = h0 b) →
        s.mem.next ≤ (exec a (s.th i).env s.mem).2.next →
        (∀ x, O' i x = true → base ≤ (exec a (s.th i).env s.mem).1 x ∧ (exec a (s.th i).env s.mem).1 x < (exec a (s.th i).env s.mem).2.next) →
        (∀ x, O' i x = false → (exec a (s.th i).env s.mem).1 x < base) →
        (∀ x y, O' i x = true → O' i y = true → (exec a (s.th i).env s.mem).1 x = (exec a (s.th i).env s.mem).1 y → x = y) →
        (∀ x j y, j ≠ i → O' i x = true → O j y = true → (exec a (s.th i).env s.mem).1 x ≠ (s.th j).env y) →
        (∀ x, (exec a (s.th i).env s.mem).2.buf ((exec a (s.th i).env s.mem).1 x) = vexec (w i).val a x) →
        (∀ j x, j ≠ i → (exec a (s.th i).env s.mem).2.buf ((s.th j).env x) = s.mem.buf ((s.th j).env x)) →
        ∃ O', Inv π I h0 base (s.step π i) (Function.update w i ((w i).step (π i))) O' := by
      intro O' hO' g1 g2 g3 g4 g5 g6 g7 g8
      have hOi : O' i = own (O i) a := by rw [hO', Function.update_self]
      have hOj : ∀ j, j ≠ i → O' j = O j := fun j hj => by rw [hO', Function.update_of_ne hj]
      refine ⟨O', ?_, ?_, ?_, ?_, ?_, ?_, ?_, ?_⟩
      · rw [hmem]; exact g1
      · rw [hmem]; exact h.next.trans g2
      · intro j x hx
        by_cases hj : j = i
        · subst hj; rw [hthi, hmem]; exact g3 x hx
        · rw [hthj j hj, hmem]
          rw [hOj j hj] at hx
          exact ⟨(h.mine j x hx).1, (h.mine j x hx).2.trans_le g2⟩
      · intro j x hx
        by_cases hj : j = i
        · subst hj; rw [hthi]; exact g4 x hx
        · rw [hthj j hj]; rw [hOj j hj] at hx; exact h.given j x hx
      · intro j x k y hx hy e
        by_cases hj : j = i
        · by_cases hk : k = i
          · subst hj; subst hk
            rw [hthi] at e
            exact ⟨rfl, g5 x y hx hy e⟩
          · subst hj
            rw [hthi, hthj k hk] at e
            rw [hOj k hk] at hy
            exact absurd e (g6 x k y hk hx hy)
        · by_cases hk : k = i
          · subst hk
            rw [hthi, hthj j hj] at e
            rw [hOj j hj] at hx
            exact absurd e.symm (g6 y j x hj hy hx)
          · rw [hthj j hj, hthj k hk] at e
            rw [hOj j hj] at hx
            rw [hOj k hk] at hy
            exact h.apart j x k y hx hy e
      · intro j
        by_cases hj : j = i
        · subst hj; rw [hthi, hOi]; exact hsl
        · rw [hthj j hj, hOj j hj]; exact h.safe j
      · intro j
        by_cases hj : j = i
        · subst hj; rw [hthi, hOi]; exact hinv
        · rw [hthj j hj, hOj j hj]; exact h.inv j
      · intro j
        by_cases hj : j = i
        · subst hj
          rw [hthi, hmem, Function.update_self, hw]
          exact ⟨g7, rfl, sc⟩
        · rw [hthj j hj, hmem, Function.update_of_ne hj]
          obtain ⟨v1, v2, v3⟩ := h.sim j
          exact ⟨fun x => (g8 j x hj).trans (v1 x), v2, v3⟩
    cases a with
    | name x y =>
      have hy : O i y = false := hsa
      refine fin _ rfl h.inputs le_rfl ?_ ?_ ?_ ?_ ?_ (fun j x _ => rfl)
      · intro z hz
        rw [Function.update_self] at hz
        by_cases hzx : z = x
        · subst hzx; simp [own] at hz
        · simp only [own, Function.update_of_ne hzx] at hz
          simp only [exec, Function.update_of_ne hzx]
          exact h.mine i z hz
      · intro z hz
        rw [Function.update_self] at hz
        by_cases hzx : z = x
        · subst hzx; simp only [exec, Function.update_self]; exact h.given i y hy
        · simp only [own, Function.update_of_ne hzx] at hz
          simp only [exec, Function.update_of_ne hzx]
          exact h.given i z hz
      · intro z z' hz hz' e
        rw [Function.update_self] at hz hz'
        have n1 : z ≠ x := fun e => by subst e; simp [own] at hz
        have n2 : z' ≠ x := fun e => by subst e; simp [own] at hz'
        simp only [own, Function.update_of_ne n1] at hz
        simp only [own, Function.update_of_ne n2] at hz'
        simp only [exec, Function.update_of_ne n1, Function.update_of_ne n2] at e
        exact (h.apart i z i z' hz hz' e).2
      · intro z j y' hj hz hy' e
        rw [Function.update_self] at hz
        have n1 : z ≠ x := fun e => by subst e; simp [own] at hz
        simp only [own, Function.update_of_ne n1] at hz
        simp only [exec, Function.update_of_ne n1] at e
        exact hj (h.apart i z j y' hz hy' e).1.symm
      · intro z
        by_cases hzx : z = x
        · subst hzx; simp only [exec, vexec, Function.update_self]; exact sv y
        · simp only [exec, vexec, Function.update_of_ne hzx]; exact sv z
    | new x a =>
      have old : ∀ j y, (s.th j).env y ≠ s.mem.next := by
        intro j y
        cases hO : O j y with
        | true => exact (h.mine j y hO).2.ne
        | false => exact ((h.given j y hO).trans_le h.next).ne
      refine fin _ rfl ?_ (Nat.le_succ _) ?_ ?_ ?_ ?_ ?_ ?_
      · intro b hb
        simp only [exec, Function.update_of_ne (hb.trans_le h.next).ne]
        exact h.inputs b hb
      · intro z hz
        by_cases hzx : z = x
        · subst hzx; simp only [exec, Function.update_self]; exact ⟨h.next, Nat.lt_succ_self _⟩
        · simp only [Function.update_self, own, Function.update_of_ne hzx] at hz
          simp only [exec, Function.update_of_ne hzx]
          exact ⟨(h.mine i z hz).1, (h.mine i z hz).2.trans (Nat.lt_succ_self _)⟩
      · intro z hz
        by_cases hzx : z = x
        · subst hzx; simp [own] at hz
        · simp only [Function.update_self, own, Function.update_of_ne hzx] at hz
          simp only [exec, Function.update_of_ne hzx]
          exact h.given i z hz
      · intro z z' hz hz' e
        by_cases n1 : z = x
        · by_cases n2 : z' = x
          · rw [n1, n2]
          · subst n1
            simp only [exec, Function.update_self, Function.update_of_ne n2] at e
            exact absurd e.symm (old i z')
        · by_cases n2 : z' = x
          · subst n2
            simp only [exec, Function.update_self, Function.update_of_ne n1] at e
            exact absurd e (old i z)
          · simp only [Function.update_self, own, Function.update_of_ne n1] at hz
            simp only [Function.update_self, own, Function.update_of_ne n2] at hz'
            simp only [exec, Function.update_of_ne n1, Function.update_of_ne n2] at e
            exact (h.apart i z i z' hz hz' e).2
      · intro z j y' hj hz hy' e
        by_cases n1 : z = x
        · subst n1
          simp only [exec, Function.update_self] at e
          exact old j y' e.symm
        · simp only [Function.update_self, own, Function.update_of_ne n1] at hz
          simp only [exec, Function.update_of_ne n1] at e
          exact hj (h.apart i z j y' hz hy' e).1.symm
      · intro z
        by_cases hzx : z = x
        · subst hzx; simp only [exec, vexec, Function.update_self]
        · simp only [exec, vexec, Function.update_of_ne hzx, Function.update_of_ne (old i z)]; exact sv z
      · intro j z _
        simp only [exec, Function.update_of_ne (old j z)]
    | write x a =>
      have hx : O i x = true := hsa
      have other : ∀ j z, (j ≠ i ∨ z ≠ x) → (s.th j).env z ≠ (s.th i).env x := by
        intro j z hne e
        cases hO : O j z with
        | true =>
          obtain ⟨e1, e2⟩ := h.apart j z i x hO hx e
          rcases hne with hne | hne
          · exact hne e1
          · exact hne e2
        | false =>
          have := h.given j z hO
          have := (h.mine i x hx).1
          omega
      refine fin _ rfl ?_ le_rfl ?_ ?_ ?_ ?_ ?_ ?_
      · intro b hb
        have : b ≠ (s.th i).env x := by have := (h.mine i x hx).1; omega
        simp only [exec, Function.update_of_ne this]
        exact h.inputs b hb
      · intro z hz
        simp only [Function.update_self, own] at hz
        exact h.mine i z hz
      · intro z hz
        simp only [Function.update_self, own] at hz
        exact h.given i z hz
      · intro z z' hz hz' e
        simp only [Function.update_self, own] at hz hz'
        exact (h.apart i z i z' hz hz' e).2
      · intro z j y' hj hz hy' e
        simp only [Function.update_self, own] at hz
        exact hj (h.apart i z j y' hz hy' e).1.symm
      · intro z
        by_cases hzx : z = x
        · subst hzx; simp only [exec, vexec, Function.update_self]
        · simp only [exec, vexec, Function.update_of_ne hzx, Function.update_of_ne (other i z (.inr hzx))]; exact sv z
      · intro j z hj
        simp only [exec, Function.update_of_ne (other j z (.inl hj))]

/-- The calls start: their variables name arrays given by the caller (buffers below `base`), possibly shared. -/
structure Starts (c0 : ∀ i, C i) (base : ℕ) (s : Sys V F C) : Prop where
  env : ∀ i x, (s.th i).env x < base
  todo : ∀ i, (s.th i).todo = []
  ctrl : ∀ i, (s.th i).ctrl = c0 i
  next : base ≤ s.mem.next

theorem run_inv (hI : ∀ i c O, I i c O → ∀ v, SafeL O (π i c v).1 ∧ I i (π i c v).2 (ownL O (π i c v).1)) (σ : List ℕ) : ∀ {s : Sys V F C} {w : ∀ i, VThread V F (C i)}
    {O : ℕ → V → Bool}, Inv π I h0 base s w O → ∃ O', Inv π I h0 base (s.run π σ) (fun i => (VThread.step (π i))^[σ.count i] (w i)) O' := by
  induction σ with
  | nil => intro s w O h; exact ⟨O, h⟩
  | cons a σ ih =>
    intro s w O h
    obtain ⟨O1, h1⟩ := h.step hI a
    obtain ⟨O2, h2⟩ := ih h1
    refine ⟨O2, ?_⟩
    have e : (fun i => (VThread.step (π i))^[σ.count i] (Function.update w a ((w a).step (π a)) i)) = fun i => (VThread.step (π i))^[(a :: σ).count i] (w i) := by
      funext i
      by_cases hi : i = a
      · subst hi
        rw [Function.update_self, List.count_cons_self, Function.iterate_succ_apply]
      · rw [Function.update_of_ne hi, List.count_cons_of_ne (Ne.symm hi)]
    rw [e] at h2
    exact h2

/-- **Isolation**: under every schedule, calls whose statements are safe leave the caller's arrays as they are, and each is where it would be by itself after the same number of
steps; the arrays it has made are its own. -/
theorem isolation {c0 : ∀ i, C i} (hπ : ∀ i, Disciplined (π i) (c0 i) (I i)) {s : Sys V F C} (hs : Starts c0 base s) (σ : List ℕ) :
    (∀ b < base, (s.run π σ).mem.buf b = s.mem.buf b) ∧
    (∀ i, Sim (s.run π σ).mem ((s.run π σ).th i) ((VThread.step (π i))^[σ.count i] ⟨fun x => s.mem.buf ((s.th i).env x), [], c0 i⟩)) ∧
    (∀ i x, base ≤ ((s.run π σ).th i).env x → ∀ j y, ((s.run π σ).th i).env x = ((s.run π σ).th j).env y → i = j ∧ x = y) ∧
    ∀ i, ((s.run π σ).th i).todo = [] → ∃ O, I i ((s.run π σ).th i).ctrl O ∧ ∀ x, O x = true → base ≤ ((s.run π σ).th i).env x := by
  have h0 : Inv π I s.mem.buf base s (fun i => ⟨fun x => s.mem.buf ((s.th i).env x), [], c0 i⟩) fun _ _ => false := by
    refine ⟨fun _ _ => rfl, hs.next, fun _ _ h => absurd h (by simp), fun i x _ => hs.env i x, fun _ _ _ _ h => absurd h (by simp), fun i => ?_, fun i => ?_,
      fun i => ⟨fun _ => rfl, hs.todo i, hs.ctrl i⟩⟩
    · rw [hs.todo]; trivial
    · rw [hs.todo, hs.ctrl]; exact (hπ i).start
  obtain ⟨O, h⟩ := run_inv (fun i => (hπ i).step) σ h0
  refine ⟨h.inputs, h.sim, ?_, ?_⟩
  · intro i x hx j y e
    have hO : ∀ j y, base ≤ ((s.run π σ).th j).env y → O j y = true := by
      intro j y hy
      cases hc : O j y with
      | true => rfl
      | false => have := h.given j y hc; omega
    exact h.apart i x j y (hO i x hx) (hO j y (e ▸ hx)) e
  · intro i hi
    refine ⟨O i, ?_, fun x hx => (h.mine i x hx).1⟩
    have := h.inv i
    rw [hi] at this
    exact this

/-! ## A call by itself -/

section
variable {D : Type*} {ρ : Prog V F D}

/-- Some number of steps leads from one state to another. -/
def Go (ρ : Prog V F D) (a b : VThread V F D) : Prop := ∃ n, (VThread.step ρ)^[n] a = b

theorem Go.refl (a : VThread V F D) : Go ρ a a := ⟨0, rfl⟩

theorem Go.trans {a b c : VThread V F D} (h : Go ρ a b) (h' : Go ρ b c) : Go ρ a c := by
  obtain ⟨n, rfl⟩ := h
  obtain ⟨m, rfl⟩ := h'
  exact ⟨m + n, Function.iterate_add_apply _ _ _ _⟩

theorem Go.one {a b : VThread V F D} (h : a.step ρ = b) : Go ρ a b := ⟨1, h⟩

theorem go_todo (l : List (Instr V F)) : ∀ (v : V → ℕ → F) (c : D), Go ρ ⟨v, l, c⟩ ⟨l.foldl vexec v, [], c⟩ := by
  induction l with
  | nil => intro v c; exact Go.refl _
  | cons a l ih => intro v c; exact (Go.one rfl).trans (ih (vexec v a) c)

theorem go_next (v : V → ℕ → F) (c : D) : Go ρ ⟨v, [], c⟩ ⟨(ρ c v).1.foldl vexec v, [], (ρ c v).2⟩ :=
  (Go.one rfl).trans (go_todo _ _ _)

theorem go_of {v v' : V → ℕ → F} {c c' : D} {l : List (Instr V F)} (h : ρ c v = (l, c')) (hl : l.foldl vexec v = v') : Go ρ ⟨v, [], c⟩ ⟨v', [], c'⟩ := by
  have := go_next (ρ := ρ) v c
  rwa [h, hl] at this

end

end Threads
