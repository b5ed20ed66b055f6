import Verif.Model.Traj

/-! # Every point the root finders return is an input or the result of an addition or subtraction -/

set_option linter.unusedSectionVars false

namespace Fzero
open FloatLike
variable {F : Type*} [FloatLike F]

/-- A set of values that contains every sum and difference, and is closed under minimum and maximum. -/
structure Closed (Q : F → Prop) : Prop where
  add : ∀ x y, Q (x + y)
  sub : ∀ x y, Q (x - y)
  fmin : ∀ x y, Q x → Q y → Q (fmin x y)
  fmax : ∀ x y, Q x → Q y → Q (fmax x y)
  nan : Q nan

variable {Q : F → Prop} {f : F → F} {t : F}

theorem brentSwap_closed {s : BrentSt F} (h : Q s.b ∧ Q s.c) : Q (brentSwap s).b ∧ Q (brentSwap s).c := by
  unfold brentSwap
  split_ifs
  · exact ⟨h.2, h.1⟩
  · exact h

theorem brentMove_closed (C : Closed Q) {s : BrentSt F} (h : Q s.b ∧ Q s.c) (tol m e d : F) :
    Q (brentMove f s tol m e d).b ∧ Q (brentMove f s tol m e d).c := by
  have hb : Q (if lt tol (abs d) then s.b + d else if lt (lit 0) m then s.b + tol else s.b - tol) := by
    split_ifs
    · exact C.add _ _
    · exact C.add _ _
    · exact C.sub _ _
  unfold brentMove
  simp only
  split_ifs at hb ⊢ <;> first | exact ⟨hb, h.1⟩ | exact ⟨hb, h.2⟩

theorem brentLoop_closed (C : Closed Q) (n : ℕ) : ∀ (s : BrentSt F) (r : F), Q s.b → Q s.c → brentLoop f t n s = .ret r → Q r := by
  induction n with
  | zero => intro s r _ _ h; simp [brentLoop] at h
  | succ n ih =>
    intro s r hb hc h
    have hs := brentSwap_closed (s := s) ⟨hb, hc⟩
    rw [brentLoop, brentStep] at h
    split at h
    · rename_i b' hd
      split_ifs at hd
      · cases hd; cases h; exact hs.1
      · split at hd <;> cases hd
    · cases h
    · rename_i s' hd
      split_ifs at hd
      split at hd
      · cases hd
      · rename_i e d he
        cases hd
        have := brentMove_closed (f := f) C hs (lit 2 * lit eps64 * abs (brentSwap s).b + t)
          (lit (1/2) * ((brentSwap s).c - (brentSwap s).b)) e d
        exact ih _ _ this.1 this.2 h

theorem brent_closed (C : Closed Q) {fuel : ℕ} {a b r : F} (ha : Q a) (hb : Q b) (h : brent fuel f a b t = .ret r) : Q r := by
  unfold brent at h
  simp only at h
  split_ifs at h
  · cases h; exact C.nan
  · cases h; exact C.nan
  · exact brentLoop_closed C _ _ _ hb ha h

theorem gtbTest_closed {s : GtbSt F} {k : GtbStep F} {a b : F} (hs : Q s.a ∧ Q s.b) (hk : ∀ a b, k = .ret a b → Q a ∧ Q b)
    (h : gtbTest s k = .ret a b) : Q a ∧ Q b := by
  unfold gtbTest at h
  split at h
  · split_ifs at h
    · cases h; exact hs
    · exact hk _ _ h
  · cases h

theorem gtbTest_next {s s' : GtbSt F} {k : GtbStep F} (h : gtbTest s k = .next s') : k = .next s' := by
  unfold gtbTest at h
  split at h
  · split_ifs at h
    exact h
  · cases h

theorem gtbLoop_closed (C : Closed Q) {x A B : F} (hA : Q A) (hB : Q B) (n : ℕ) :
    ∀ (s : GtbSt F) (ab : F × F), Q s.a → Q s.b → gtbLoop f x A B n s = .ret ab → Q ab.1 ∧ Q ab.2 := by
  have hl : ∀ s : GtbSt F, Q s.a → Q s.b → (∀ a b, gtbLeft f x A B s = .ret a b → Q a ∧ Q b) ∧
      (∀ s', gtbLeft f x A B s = .next s' → Q s'.a ∧ Q s'.b) := by
    intro s ha hb
    have hm : Q (FloatLike.fmax (x - s.dxm * lit growth) A) := C.fmax _ _ (C.sub _ _) hA
    unfold gtbLeft
    simp only
    split_ifs
    · refine ⟨fun a b h => gtbTest_closed (by exact ⟨hm, hb⟩) (by intro a b h; cases h) h, fun s' h => ?_⟩
      cases gtbTest_next h
      exact ⟨hm, hb⟩
    · refine ⟨fun a b h => gtbTest_closed ⟨ha, hb⟩ (by intro a b h; cases h; exact ⟨C.nan, C.nan⟩) h, fun s' h => ?_⟩
      cases gtbTest_next h
    · exact ⟨fun a b h => (by cases h), fun s' h => by cases h; exact ⟨ha, hb⟩⟩
  have hr : ∀ s : GtbSt F, Q s.a → Q s.b → (∀ a b, gtbRight f x A B s = .ret a b → Q a ∧ Q b) ∧
      (∀ s', gtbRight f x A B s = .next s' → Q s'.a ∧ Q s'.b) := by
    intro s ha hb
    have hm : Q (FloatLike.fmin (x + s.dxp * lit growth) B) := C.fmin _ _ (C.add _ _) hB
    unfold gtbRight
    simp only
    split_ifs
    · refine ⟨fun a b h => gtbTest_closed (by exact ⟨ha, hm⟩) (by intro a b h; cases h) h, fun s' h => ?_⟩
      cases gtbTest_next h
      exact ⟨ha, hm⟩
    · refine ⟨fun a b h => gtbTest_closed ⟨ha, hb⟩ (by intro a b h; cases h; exact ⟨C.nan, C.nan⟩) h, fun s' h => ?_⟩
      cases gtbTest_next h
    · exact ⟨fun a b h => (by cases h), fun s' h => by cases h; exact ⟨ha, hb⟩⟩
  induction n with
  | zero => intro s ab _ _ h; simp [gtbLoop] at h
  | succ n ih =>
    intro s ab ha hb h
    rw [gtbLoop] at h
    split at h
    · rename_i a b hd
      cases h
      exact (hl s ha hb).1 _ _ hd
    · cases h
    · rename_i s' hd
      obtain ⟨ha', hb'⟩ := (hl s ha hb).2 _ hd
      split at h
      · rename_i a b hd'
        cases h
        exact (hr s' ha' hb').1 _ _ hd'
      · cases h
      · rename_i s'' hd'
        obtain ⟨ha'', hb''⟩ := (hr s' ha' hb').2 _ hd'
        exact ih _ _ ha'' hb'' h

theorem guessToBounds_closed (C : Closed Q) {fuel : ℕ} {x A B : F} {ab : F × F} (hx : Q x) (hA : Q A) (hB : Q B)
    (h : guessToBounds fuel f x A B = .ret ab) : Q ab.1 ∧ Q ab.2 := by
  unfold guessToBounds at h
  simp only at h
  split_ifs at h
  · cases h; exact ⟨hA, hA⟩
  · cases h; exact ⟨hB, hB⟩
  · have hx' : Q (FloatLike.fmin (FloatLike.fmax x A) B) := C.fmin _ _ (C.fmax _ _ hx hA) hB
    refine gtbLoop_closed C hA hB _ _ _ ?_ ?_ h
    · unfold gtbInit
      simp only
      split_ifs <;> first | exact hA | exact hx'
    · unfold gtbInit
      simp only
      split_ifs <;> first | exact hB | exact hx'

end Fzero

namespace Traj
open FloatLike Fzero
variable {F : Type*} [FloatLike F] {Q : F → Prop}

theorem outcome_bind {R S : Type*} {o : Outcome R} {g : R → Outcome S} {q : S} (h : o.bind g = .ret q) :
    ∃ r, o = .ret r ∧ g r = .ret q := by
  cases o <;> simp only [Outcome.bind] at h <;> first | exact ⟨_, rfl, h⟩ | cases h

/-- The pressure found by `ntp_bottle_to_cast` is an input or the result of an addition or subtraction. -/
theorem ntp_closed (C : Closed Q) {fuel : ℕ} {tol : F} {eos : F → F → F → F} {kind : PPKind} {sB tB pB : F} {c : Cast F} {r : F × F × F}
    (hp : Q pB) (hP : 1 < (Interp.validRange2 c.S c.P).2 - (Interp.validRange2 c.S c.P).1 →
      Q (c.P.get (Interp.validRange2 c.S c.P).1) ∧ Q (c.P.get ((Interp.validRange2 c.S c.P).2 - 1)))
    (h : ntpBottleToCast fuel tol eos kind sB tB pB c = .ret r) : Q r.2.2 := by
  unfold ntpBottleToCast ntpCast at h
  simp only at h
  split_ifs at h with hlt
  · have hP0 : Q ((c.P.slice (Interp.validRange2 c.S c.P).1 (Interp.validRange2 c.S c.P).2).get 0) := (hP hlt).1
    have hP1 : Q ((c.P.slice (Interp.validRange2 c.S c.P).1 (Interp.validRange2 c.S c.P).2).get
        ((c.P.slice (Interp.validRange2 c.S c.P).1 (Interp.validRange2 c.S c.P).2).size - 1)) := by
      have := (hP hlt).2
      generalize (Interp.validRange2 c.S c.P).1 = k at *
      generalize (Interp.validRange2 c.S c.P).2 = K at *
      show Q (c.P.get (k + (K - k - 1)))
      rwa [show k + (K - k - 1) = K - 1 by omega]
    split at h
    · obtain ⟨p, h1, h2⟩ := outcome_bind h
      have hq : Q p := by
        unfold ntpPpc solveRoot at h1
        obtain ⟨ab, h3, h4⟩ := outcome_bind h1
        obtain ⟨e1, e2⟩ := guessToBounds_closed C hp hP0 hP1 h3
        split_ifs at h4
        · exact brent_closed C e1 e2 h4
        · cases h4; exact C.nan
      split_ifs at h2 <;> (cases h2; exact hq)
    · cases h
  · cases h; exact C.nan

end Traj
