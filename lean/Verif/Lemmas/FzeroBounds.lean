import Verif.Lemmas.Fzero

namespace Fzero
open FloatLike Fl

variable {α : Type*} [Field α] [LinearOrder α] [IsStrictOrderedRing α]

theorem growth_pow : (50 : α) ≤ (growth : α) ^ 12 := by
  have : (50 : ℚ) ≤ growth ^ 12 := by norm_num [growth]
  exact_mod_cast this

theorem growth_one : (1 : α) ≤ (growth : α) := by
  have : (1 : ℚ) ≤ growth := by norm_num [growth]
  exact_mod_cast this

theorem growth_nonneg : (0 : α) ≤ (growth : α) := le_trans zero_le_one growth_one

/-- loop state with finite numbers -/
abbrev gSt (a b dm dp : α) (fp fq : Option Bool) : GtbSt (Fl α) :=
  ⟨fin a, fin b, fin dm, fin dp, fp, fq⟩

structure GInv (g : α → α) (x A B : α) (k : ℕ) (a b dm dp : α) (fp fq : Option Bool) : Prop where
  hAa : A ≤ a
  hax : a ≤ x
  hxb : x ≤ b
  hbB : b ≤ B
  hfp : a = A → fp = some (decide (0 < g a))
  hfq : (A < a ∨ b = B) → fq = some (decide (0 < g b))
  hka : a = A ∨ (dm = (x - A) / 50 * (growth : α) ^ k ∧ k < 12)
  hkb : b = B ∨ (dp = (B - x) / 50 * (growth : α) ^ k ∧ k < 12)

/-- State between the two halves of a pass. -/
structure GMid (g : α → α) (x A B : α) (k : ℕ) (a b dm dp : α) (fp fq : Option Bool) : Prop where
  hAa : A ≤ a
  hax : a ≤ x
  hxb : x ≤ b
  hbB : b ≤ B
  hfp : fp = some (decide (0 < g a))
  hfq : (A < a ∨ b = B) → fq = some (decide (0 < g b))
  hka : a = A ∨ (dm = (x - A) / 50 * (growth : α) ^ (k + 1) ∧ k + 1 < 12)
  hkb : b = B ∨ (dp = (B - x) / 50 * (growth : α) ^ k ∧ k < 12)

/-- What holds of a returned pair. -/
def GPost (g : α → α) (A B : α) (r : Fl α × Fl α) : Prop :=
  (r = (nan, nan) ∧ (0 < g A ↔ 0 < g B)) ∨
  ∃ a b, r = (fin a, fin b) ∧ A ≤ a ∧ a ≤ b ∧ b ≤ B ∧ ¬ (0 < g a ↔ 0 < g b)

theorem gtbTest_eq {g : α → α} {a b dm dp : α} (k : GtbStep (Fl α)) :
    gtbTest (gSt a b dm dp (some (decide (0 < g a))) (some (decide (0 < g b)))) k =
      if (0 < g a ↔ 0 < g b) then k else .ret (fin a) (fin b) := by
  by_cases h1 : 0 < g a <;> by_cases h2 : 0 < g b <;> simp [gtbTest, gSt, h1, h2]

theorem expand_left {x A dm a' : α} {k : ℕ} (hAx : A ≤ x)
    (h : dm = (x - A) / 50 * (growth : α) ^ k) (hk : k < 12) (ha' : a' = max (x - dm * (growth : α)) A) :
    A ≤ a' ∧ a' ≤ x ∧ (a' = A ∨ (dm * (growth : α) = (x - A) / 50 * (growth : α) ^ (k + 1) ∧ k + 1 < 12)) := by
  have hdm : 0 ≤ dm * (growth : α) := by
    rw [h]
    have : 0 ≤ x - A := by linarith
    have := growth_nonneg (α := α)
    positivity
  subst ha'
  refine ⟨le_max_right _ _, max_le (by linarith) hAx, ?_⟩
  by_cases h12 : k + 1 < 12
  · right; exact ⟨by rw [h, pow_succ]; ring, h12⟩
  · left
    have hk : k = 11 := by omega
    have : dm * (growth : α) = (x - A) / 50 * (growth : α) ^ 12 := by rw [h, hk]; ring
    apply max_eq_right
    rw [this]
    have h50 := growth_pow (α := α)
    have : 0 ≤ x - A := by linarith
    have : (x - A) / 50 * 50 ≤ (x - A) / 50 * (growth : α) ^ 12 :=
      mul_le_mul_of_nonneg_left h50 (by positivity)
    have h2 : (x - A) / 50 * 50 = x - A := by field_simp
    linarith

theorem expand_right {x B dp b' : α} {k : ℕ} (hxB : x ≤ B)
    (h : dp = (B - x) / 50 * (growth : α) ^ k) (hk : k < 12) (hb' : b' = min (x + dp * (growth : α)) B) :
    b' ≤ B ∧ x ≤ b' ∧ (b' = B ∨ (dp * (growth : α) = (B - x) / 50 * (growth : α) ^ (k + 1) ∧ k + 1 < 12)) := by
  have hdp : 0 ≤ dp * (growth : α) := by
    rw [h]
    have : 0 ≤ B - x := by linarith
    have := growth_nonneg (α := α)
    positivity
  subst hb'
  refine ⟨min_le_right _ _, le_min (by linarith) hxB, ?_⟩
  by_cases h12 : k + 1 < 12
  · right; exact ⟨by rw [h, pow_succ]; ring, h12⟩
  · left
    have hk : k = 11 := by omega
    have : dp * (growth : α) = (B - x) / 50 * (growth : α) ^ 12 := by rw [h, hk]; ring
    apply min_eq_right
    rw [this]
    have h50 := growth_pow (α := α)
    have : 0 ≤ B - x := by linarith
    have : (B - x) / 50 * 50 ≤ (B - x) / 50 * (growth : α) ^ 12 :=
      mul_le_mul_of_nonneg_left h50 (by positivity)
    have h2 : (B - x) / 50 * 50 = B - x := by field_simp
    linarith

theorem gtbLeft_fin {f : Fl α → Fl α} {g : α → α} {x A B : α} {k : ℕ} {a b dm dp : α} {fp fq : Option Bool}
    (hf : ∀ y, A ≤ y → y ≤ B → f (fin y) = fin (g y))
    (I : GInv g x A B k a b dm dp fp fq) :
    (∃ p q, gtbLeft f (fin x) (fin A) (fin B) (gSt a b dm dp fp fq) = .ret p q ∧ GPost g A B (p, q)) ∨
    (¬ (a = A ∧ b = B) ∧ ∃ a' b' dm' dp' fp' fq',
      gtbLeft f (fin x) (fin A) (fin B) (gSt a b dm dp fp fq) = .next (gSt a' b' dm' dp' fp' fq') ∧
      GMid g x A B k a' b' dm' dp' fp' fq') := by
  have hAx : A ≤ x := le_trans I.hAa I.hax
  have hxB : x ≤ B := le_trans I.hxb I.hbB
  unfold gtbLeft
  simp only [lt_fin, feq_fin, lit_eq, fin_mul, fin_sub, fmax_fin]
  by_cases h : A < a
  · rw [if_pos (by simpa using h)]
    obtain ⟨hdm, hk⟩ : dm = (x - A) / 50 * (growth : α) ^ k ∧ k < 12 := by
      rcases I.hka with h' | h'
      · exact absurd h' h.ne'
      · exact h'
    obtain ⟨e1, e2, e3⟩ := expand_left hAx hdm hk rfl
    rw [hf _ e1 (le_trans e2 hxB)]
    have hq := I.hfq (Or.inl h)
    subst hq
    simp only [lt_fin, Rat.cast_zero]
    rw [gtbTest_eq (g := g)]
    split_ifs with h2
    · right
      refine ⟨fun h' => h.ne' h'.1, _, _, _, _, _, _, rfl, ⟨e1, e2, I.hxb, I.hbB, rfl, fun _ => rfl, e3, I.hkb⟩⟩
    · left
      exact ⟨_, _, rfl, Or.inr ⟨_, _, rfl, e1, le_trans e2 I.hxb, I.hbB, h2⟩⟩
  · have ha : a = A := le_antisymm (not_lt.mp h) I.hAa
    rw [if_neg (by simpa using h)]
    by_cases hb : b = B
    · left
      simp only [show decide (b = B) = true from by simpa using hb, if_true]
      have hp := I.hfp ha
      have hq := I.hfq (Or.inr hb)
      subst hp hq ha hb
      rw [gtbTest_eq (g := g)]
      split_ifs with h2
      · exact ⟨_, _, rfl, Or.inl ⟨rfl, h2⟩⟩
      · exact ⟨_, _, rfl, Or.inr ⟨_, _, rfl, le_refl _, le_trans I.hax I.hxb, le_refl _, h2⟩⟩
    · right
      simp only [show decide (b = B) = false from by simpa using hb, Bool.false_eq_true, if_false]
      refine ⟨fun h' => hb h'.2, _, _, _, _, _, _, rfl, ⟨I.hAa, I.hax, I.hxb, I.hbB, I.hfp ha, I.hfq, Or.inl ha, I.hkb⟩⟩

theorem gtbRight_fin {f : Fl α → Fl α} {g : α → α} {x A B : α} {k : ℕ} {a b dm dp : α} {fp fq : Option Bool}
    (hf : ∀ y, A ≤ y → y ≤ B → f (fin y) = fin (g y))
    (I : GMid g x A B k a b dm dp fp fq) :
    (∃ p q, gtbRight f (fin x) (fin A) (fin B) (gSt a b dm dp fp fq) = .ret p q ∧ GPost g A B (p, q)) ∨
    (∃ a' b' dm' dp' fp' fq',
      gtbRight f (fin x) (fin A) (fin B) (gSt a b dm dp fp fq) = .next (gSt a' b' dm' dp' fp' fq') ∧
      GInv g x A B (k + 1) a' b' dm' dp' fp' fq') := by
  have hAx : A ≤ x := le_trans I.hAa I.hax
  have hxB : x ≤ B := le_trans I.hxb I.hbB
  have hp := I.hfp
  subst hp
  unfold gtbRight
  simp only [lt_fin, feq_fin, lit_eq, fin_mul, fin_add, fmin_fin]
  by_cases h : b < B
  · rw [if_pos (by simpa using h)]
    obtain ⟨hdp, hk⟩ : dp = (B - x) / 50 * (growth : α) ^ k ∧ k < 12 := by
      rcases I.hkb with h' | h'
      · exact absurd h' h.ne
      · exact h'
    obtain ⟨e1, e2, e3⟩ := expand_right hxB hdp hk rfl
    rw [hf _ (le_trans hAx e2) e1]
    simp only [lt_fin, Rat.cast_zero]
    rw [gtbTest_eq (g := g)]
    split_ifs with h2
    · right
      refine ⟨_, _, _, _, _, _, rfl, ⟨I.hAa, I.hax, e2, e1, fun _ => rfl, fun _ => rfl, I.hka, e3⟩⟩
    · left
      exact ⟨_, _, rfl, Or.inr ⟨_, _, rfl, I.hAa, le_trans I.hax e2, e1, h2⟩⟩
  · have hb : b = B := le_antisymm I.hbB (not_lt.mp h)
    have hq := I.hfq (Or.inr hb)
    subst hq
    rw [if_neg (by simpa using h)]
    by_cases ha : a = A
    · left
      simp only [show decide (a = A) = true from by simpa using ha, if_true]
      subst ha hb
      rw [gtbTest_eq (g := g)]
      split_ifs with h2
      · exact ⟨_, _, rfl, Or.inl ⟨rfl, h2⟩⟩
      · exact ⟨_, _, rfl, Or.inr ⟨_, _, rfl, le_refl _, le_trans I.hax I.hxb, le_refl _, h2⟩⟩
    · right
      simp only [show decide (a = A) = false from by simpa using ha, Bool.false_eq_true, if_false]
      exact ⟨_, _, _, _, _, _, rfl, ⟨I.hAa, I.hax, I.hxb, I.hbB, fun h => absurd h ha, fun _ => rfl, I.hka, Or.inl hb⟩⟩

theorem gtbLoop_fin {f : Fl α → Fl α} {g : α → α} {x A B : α}
    (hf : ∀ y, A ≤ y → y ≤ B → f (fin y) = fin (g y)) (n : ℕ) :
    ∀ {k : ℕ} {a b dm dp : α} {fp fq : Option Bool}, 12 ≤ n + k → GInv g x A B k a b dm dp fp fq →
      ∃ r, gtbLoop f (fin x) (fin A) (fin B) (n + 1) (gSt a b dm dp fp fq) = .ret r ∧ GPost g A B r := by
  induction n with
  | zero =>
    intro k a b dm dp fp fq hk I
    have ha : a = A := by
      rcases I.hka with h | h
      · exact h
      · omega
    have hb : b = B := by
      rcases I.hkb with h | h
      · exact h
      · omega
    rcases gtbLeft_fin hf I with ⟨p, q, h1, h2⟩ | ⟨h, _⟩
    · exact ⟨(p, q), by simp only [gtbLoop, h1], h2⟩
    · exact absurd ⟨ha, hb⟩ h
  | succ n ih =>
    intro k a b dm dp fp fq hk I
    rcases gtbLeft_fin hf I with ⟨p, q, h1, h2⟩ | ⟨_, a', b', dm', dp', fp', fq', h1, I1⟩
    · exact ⟨(p, q), by rw [gtbLoop, h1], h2⟩
    · rcases gtbRight_fin hf I1 with ⟨p, q, h3, h4⟩ | ⟨a'', b'', dm'', dp'', fp'', fq'', h3, I2⟩
      · exact ⟨(p, q), by rw [gtbLoop, h1]; simp only [h3], h4⟩
      · obtain ⟨r, h5, h6⟩ := ih (by omega) I2
        refine ⟨r, ?_, h6⟩
        rw [gtbLoop, h1]
        simp only [h3]
        exact h5

theorem gtbInit_fin {f : Fl α → Fl α} {g : α → α} {x A B : α} (hAx : A ≤ x) (hxB : x ≤ B)
    (hf : ∀ y, A ≤ y → y ≤ B → f (fin y) = fin (g y)) :
    ∃ a b dm dp fp fq, gtbInit f (fin x) (fin A) (fin B) = gSt a b dm dp fp fq ∧
      GInv g x A B 0 a b dm dp fp fq := by
  have h50 : ((50 : ℚ) : α) ≠ 0 := by norm_num
  have e1 : ((fin B - fin x) / FloatLike.lit 50 : Fl α) = fin ((B - x) / 50) := by
    simp only [fin_sub, lit_eq]; rw [fin_div _ _ h50]; norm_num
  have e2 : ((fin x - fin A) / FloatLike.lit 50 : Fl α) = fin ((x - A) / 50) := by
    simp only [fin_sub, lit_eq]; rw [fin_div _ _ h50]; norm_num
  unfold gtbInit
  simp only [e1, e2]
  simp only [feq_fin, lit_eq, Rat.cast_zero, lt_fin]
  have hz1 : (x - A) / 50 = 0 ↔ x = A := by
    rw [div_eq_zero_iff]; constructor
    · rintro (h | h)
      · linarith
      · norm_num at h
    · intro h; left; linarith
  have hz2 : (B - x) / 50 = 0 ↔ x = B := by
    rw [div_eq_zero_iff]; constructor
    · rintro (h | h)
      · linarith
      · norm_num at h
    · intro h; left; linarith
  have ha : (if decide ((x - A) / 50 = 0) = true then fin A else fin x : Fl α) = fin x := by
    split_ifs with h
    · rw [hz1.mp (by simpa using h)]
    · rfl
  have hb : (if decide ((B - x) / 50 = 0) = true then fin B else fin x : Fl α) = fin x := by
    split_ifs with h
    · rw [hz2.mp (by simpa using h)]
    · rfl
  rw [ha, hb]
  simp only [lt_fin, feq_fin]
  rw [hf x hAx hxB]
  simp only [lt_fin]
  have k0 : x = A ∨ ((x - A) / 50 = (x - A) / 50 * (growth : α) ^ 0 ∧ 0 < 12) := Or.inr ⟨by simp, by norm_num⟩
  have k1 : x = B ∨ ((B - x) / 50 = (B - x) / 50 * (growth : α) ^ 0 ∧ 0 < 12) := Or.inr ⟨by simp, by norm_num⟩
  by_cases h1 : A < x
  · rw [if_pos (by simpa using h1)]
    exact ⟨_, _, _, _, _, _, rfl, ⟨hAx, le_refl _, le_refl _, hxB, fun h => absurd h h1.ne', fun _ => rfl, k0, k1⟩⟩
  · rw [if_neg (by simpa using h1)]
    by_cases h2 : x = B
    · rw [if_pos (by simpa using h2)]
      exact ⟨_, _, _, _, _, _, rfl, ⟨hAx, le_refl _, le_refl _, hxB, fun _ => rfl, fun _ => rfl, k0, k1⟩⟩
    · rw [if_neg (by simpa using h2)]
      exact ⟨_, _, _, _, _, _, rfl, ⟨hAx, le_refl _, le_refl _, hxB, fun _ => rfl,
        fun h => h.elim (fun h => absurd h h1) (fun h => absurd h h2), k0, k1⟩⟩

end Fzero
