import Verif.Lemmas.LinSum32

/-! # Which numbers are linear takums, and how far apart neighbours are -/

namespace Takum
open Spec

/-- The regime of a characteristic. -/
def rg (c : ℤ) : ℕ := rr (drOf c)

theorem rg_tab : ∀ i < 510, rg ((i : ℕ) - 255 : ℤ) < 8 ∧
    ((2 : ℤ) ^ rg ((i : ℕ) - 255 : ℤ) - 1 ≤ (i : ℕ) - 255 ∨ ((i : ℕ) - 255 : ℤ) + 1 ≤ 1 - (2 : ℤ) ^ rg ((i : ℕ) - 255 : ℤ)) ∧
    ((i : ℕ) - 255 : ℤ) + rg ((i : ℕ) - 255 : ℤ) ≤ (i : ℕ) - 254 + rg ((i : ℕ) - 254 : ℤ) := by
  decide +kernel

theorem rg_spec {c : ℤ} (h1 : -255 ≤ c) (h2 : c < 255) : rg c < 8 ∧ Reg (rg c) c ∧ c + rg c ≤ c + 1 + rg (c + 1) := by
  obtain ⟨i, hi⟩ := Int.eq_ofNat_of_zero_le (by omega : 0 ≤ c + 255)
  have := rg_tab i (by omega)
  have e : c = (i : ℤ) - 255 := by omega
  rw [e, show (i : ℤ) - 255 + 1 = i - 254 by ring]; exact this

/-- The unit in the last place does not decrease. -/
theorem lsb_mono {c : ℤ} (h1 : -255 ≤ c) (k : ℕ) : c + k ≤ 255 → c + rg c ≤ c + k + rg (c + k) := by
  induction k with
  | zero => intro _; simp
  | succ k ih =>
    intro h
    have := ih (by push_cast at h; omega)
    have h3 := (rg_spec (c := c + k) (by omega) (by push_cast at h; omega)).2.2
    push_cast
    rw [← add_assoc]; omega

theorem psi_zero : psi 0 = -255 := by
  rw [psi_eq_piece (d := 0) (by norm_num) (by norm_num)]
  unfold piece; simp [bias]

/-- Positions that are multiples of the local spacing belong to takums. -/
theorem takum_exists {n : ℕ} (hn : 12 ≤ n) {y : ℚ} (h1 : -255 < y) (h2 : y < 255) {j : ℤ}
    (hj : y * 2 ^ (n - 5) = 2 ^ rg ⌊y⌋ * j) : ∃ t : BitVec n, Regular t ∧ t.msb = false ∧ ell t = y := by
  obtain ⟨p0, p1, p2⟩ := psiInv_spec h1.le h2
  have f1 : -255 ≤ ⌊y⌋ := by rw [Int.le_floor]; exact_mod_cast h1.le
  have f2 : ⌊y⌋ < 255 := by rw [Int.floor_lt]; exact_mod_cast h2
  have r8 := (rg_spec f1 f2).1
  obtain ⟨m, hm⟩ : ∃ m : ℕ, n - 5 = rg ⌊y⌋ + m := ⟨n - 5 - rg ⌊y⌋, by omega⟩
  have hint : psiInv y * 2 ^ (n - 5) = ((drOf ⌊y⌋ * 2 ^ (n - 5) + j - bias (drOf ⌊y⌋) * 2 ^ m : ℤ) : ℚ) := by
    have e : psiInv y = drOf ⌊y⌋ + (y - bias (drOf ⌊y⌋)) / 2 ^ rg ⌊y⌋ := rfl
    have hp : (2 : ℚ) ^ rg ⌊y⌋ ≠ 0 := by positivity
    rw [hm, pow_add] at hj ⊢
    have hj' : y * 2 ^ m = j := by apply mul_left_cancel₀ hp; linear_combination hj
    rw [e]
    push_cast
    field_simp
    linear_combination hj'
  have hW : (0 : ℚ) < 2 ^ (n - 5) := by positivity
  have pos0 : 0 < psiInv y := by
    refine lt_of_le_of_ne p0 fun h => ?_
    rw [← h, psi_zero] at p2; linarith
  set K : ℤ := drOf ⌊y⌋ * 2 ^ (n - 5) + j - bias (drOf ⌊y⌋) * 2 ^ m with hK
  have K0 : 0 < K := by
    have : (0 : ℚ) < K := by rw [← hint]; exact mul_pos pos0 hW
    exact_mod_cast this
  obtain ⟨k, hk⟩ := Int.eq_ofNat_of_zero_le K0.le
  have k1 : 1 ≤ k := by omega
  have k2 : k < 2 ^ (n - 1) := by
    have : (K : ℚ) < ((2 ^ (n - 1) : ℕ) : ℚ) := by
      rw [← hint, show n - 1 = n - 5 + 4 by omega, pow_add]; push_cast
      nlinarith
    rw [hk] at this
    exact_mod_cast this
  refine ⟨mkT n false k, regular_mkT (by omega) _ k1 k2, mkT_msb (by omega) _ k2, ?_⟩
  rw [ell_mkT (by omega) _ k2]
  have : ((k : ℚ)) / ((2 ^ (n - 5) : ℕ) : ℚ) = psiInv y := by
    rw [div_eq_iff (by positivity)]; push_cast; rw [hint, hk]; simp
  rw [this, p2]; simp [sg]

/-- Differences of close positive takums. -/
theorem sterbenz_pos {w : W} (hw : 12 ≤ w.n) {a b : T w} (ha : Regular a) (hb : Regular b) (ma : a.msb = false) (mb : b.msb = false)
    (h1 : lv b < lv a) (h2 : lv a ≤ 2 * lv b) (h3 : lv (1#w.n) ≤ lv a - lv b) :
    ∃ t : T w, Regular t ∧ t.msb = false ∧ lv t = lv a - lv b := by
  have hm : ∀ {d e : ℤ}, d ≤ e → (2 : ℚ) ^ d ≤ (2 : ℚ) ^ e := fun h => zpow_le_zpow_right₀ (by norm_num) h
  have hz : ∀ d : ℤ, (0 : ℚ) < (2 : ℚ) ^ d := fun d => zpow_pos (by norm_num) _
  have h5 : 5 ≤ w.n := by omega
  have lvp : ∀ t : T w, t.msb = false → lv t = lam (ell t) := fun t h => by unfold lv; rw [h]; simp [sg]
  have rng : ∀ t : T w, t.msb = false → -255 ≤ ell t ∧ ell t < 255 := fun t h => by
    rw [ell_sg h5, h]; simp only [sg, Bool.false_eq_true, if_false, one_mul]
    exact ⟨psi_ge (pos_nonneg t) (pos_lt h5 t), psi_lt_255 (pos_nonneg t) (pos_lt h5 t)⟩
  have m1 : (1#w.n : T w).msb = false := by cases w <;> decide
  have one : -255 < ell (1#w.n : T w) := by
    have h := rng _ m1
    refine lt_of_le_of_ne h.1 fun e => ?_
    have h0 : ell (0#w.n : T w) = -255 := by
      have : low (0#w.n : T w) = 0 := by unfold low; simp
      rw [ell_sg h5]; unfold pos; rw [this]
      simp [psi_zero, sg]
    have : (1#w.n : T w) = 0#w.n := ell_inj h5 (by rw [m1]; simp) (by rw [h0, ← e])
    revert this; cases w <;> decide
  rw [lvp _ ma, lvp _ mb] at h1 h2 h3
  rw [lvp _ m1] at h3
  rw [lvp _ ma, lvp _ mb]
  set d := lam (ell a) - lam (ell b) with hd
  have d0 : 0 < d := by rw [hd]; linarith
  have dl := lam_lamInv d0
  set y := lamInv d with hy
  have y1 : -255 < y := lt_of_lt_of_le one (lam_strictMono.le_iff_le.mp (by rw [dl]; exact h3))
  have yb : y ≤ ell b := lam_strictMono.le_iff_le.mp (by rw [dl, hd]; linarith)
  have y2 : y < 255 := lt_of_le_of_lt yb (rng b mb).2
  have ab : ell b ≤ ell a := (lam_strictMono.lt_iff_lt.mp h1).le
  have fl : ∀ z : ℚ, -255 ≤ z → z < 255 → -255 ≤ ⌊z⌋ ∧ ⌊z⌋ < 255 := fun z h h' =>
    ⟨by rw [Int.le_floor]; exact_mod_cast h, by rw [Int.floor_lt]; exact_mod_cast h'⟩
  obtain ⟨fa1, fa2⟩ := fl _ (rng a ma).1 (rng a ma).2
  obtain ⟨fb1, fb2⟩ := fl _ (rng b mb).1 (rng b mb).2
  obtain ⟨fy1, fy2⟩ := fl _ y1.le y2
  have mono : ∀ c c' : ℤ, -255 ≤ c → c ≤ c' → c' < 255 → c + rg c ≤ c' + rg c' := fun c c' g1 g2 g3 => by
    obtain ⟨k, hk⟩ := Int.eq_ofNat_of_zero_le (sub_nonneg.mpr g2)
    have := lsb_mono g1 k (by omega)
    rwa [show c + (k : ℤ) = c' by omega] at this
  have mult : ∀ t : T w, -255 ≤ ⌊ell t⌋ → ⌊ell t⌋ < 255 → ∃ k : ℤ, lam (ell t) = k * (2 : ℚ) ^ (⌊ell t⌋ - (w.n - 5 : ℕ) + rg ⌊ell t⌋) :=
    fun t g1 g2 => by
      obtain ⟨i1, i2, -⟩ := rg_spec g1 g2
      exact lam_multiple hw t i1 i2 (lam_bounds _).1 (lam_bounds _).2.le
  obtain ⟨ka, hka⟩ := mult a fa1 fa2
  obtain ⟨kb, hkb⟩ := mult b fb1 fb2
  have e1 := mono _ _ fb1 (Int.floor_le_floor ab) fa2
  have e2 := mono _ _ fy1 (Int.floor_le_floor yb) fb2
  obtain ⟨i, hi⟩ := zpow_multiple (c := ⌊ell a⌋ - (w.n - 5 : ℕ) + rg ⌊ell a⌋) (d := ⌊y⌋ - (w.n - 5 : ℕ) + rg ⌊y⌋) (by omega)
  obtain ⟨i', hi'⟩ := zpow_multiple (c := ⌊ell b⌋ - (w.n - 5 : ℕ) + rg ⌊ell b⌋) (d := ⌊y⌋ - (w.n - 5 : ℕ) + rg ⌊y⌋) (by omega)
  obtain ⟨K, hK⟩ : ∃ K : ℤ, d = K * (2 : ℚ) ^ (⌊y⌋ - (w.n - 5 : ℕ) + rg ⌊y⌋) :=
    ⟨ka * i - kb * i', by rw [hd, hka, hkb, hi, hi']; push_cast; ring⟩
  have r8 := (rg_spec fy1 fy2).1
  obtain ⟨m, hm'⟩ : ∃ m : ℕ, w.n - 5 = rg ⌊y⌋ + m := ⟨w.n - 5 - rg ⌊y⌋, by omega⟩
  obtain ⟨t, rt, mt, et⟩ := takum_exists (n := w.n) hw y1 y2 (j := K + (⌊y⌋ - 1) * 2 ^ m) (by
    have la := lam_affine (Int.floor_le y) (Int.lt_floor_add_one y).le
    rw [dl, hK, hm'] at la
    have e : (2 : ℚ) ^ (⌊y⌋ - ((rg ⌊y⌋ + m : ℕ) : ℤ) + rg ⌊y⌋) * 2 ^ m = (2 : ℚ) ^ ⌊y⌋ := by
      rw [← zpow_natCast (2 : ℚ) m, ← zpow_add₀ (by norm_num)]; congr 1; push_cast; ring
    rw [← e] at la
    have hE := (hz (⌊y⌋ - ((rg ⌊y⌋ + m : ℕ) : ℤ) + rg ⌊y⌋)).ne'
    generalize (2 : ℚ) ^ (⌊y⌋ - ((rg ⌊y⌋ + m : ℕ) : ℤ) + rg ⌊y⌋) = E at la hE
    have la' : (K : ℚ) = (1 + (y - ⌊y⌋)) * 2 ^ m := by
      apply mul_right_cancel₀ hE; linear_combination la
    rw [hm', pow_add]
    push_cast
    linear_combination -(2 : ℚ) ^ rg ⌊y⌋ * la')
  exact ⟨t, rt, mt, by rw [lvp _ mt, et, dl]⟩

end Takum
