import Verif.Lemmas.Encode

/-!
# Consequences of the encoder lemma: monotone, exact on takums, nearest on a grid
-/

namespace Takum
open Spec

theorem W.encF_facts (w : W) : 53 ≤ w.encF.prec ∧ w.encF.emin ≤ -64 ∧ 128 ≤ w.encF.emax := by
  cases w <;> decide

theorem encN_facts (w : W) : 16 ≤ w.encN ∧ w.encN ≤ 64 ∧ w.n ≤ w.encN := by cases w <;> decide

theorem encB_psi (w : W) : w.encB = psi ((kMax w.encN : ℚ) / ((2 ^ (w.encN - 5) : ℕ) : ℚ)) := by
  have := encN_facts w
  rw [psi_kMax (by omega)]; rfl

theorem encB_psi' (w : W) : -w.encB = psi (1 / ((2 ^ (w.encN - 5) : ℕ) : ℚ)) := by
  have := encN_facts w
  rw [psi_one (by omega)]; rfl

theorem kMax_div_range {n : ℕ} (hn : 5 ≤ n) : (0 : ℚ) ≤ (kMax n : ℚ) / ((2 ^ (n - 5) : ℕ) : ℚ) ∧
    (kMax n : ℚ) / ((2 ^ (n - 5) : ℕ) : ℚ) < 16 := by
  have hW : (0 : ℚ) < ((2 ^ (n - 5) : ℕ) : ℚ) := by positivity
  refine ⟨by positivity, ?_⟩
  have hkm := kMax_add_one n
  rw [pow16 hn] at hkm
  rw [div_lt_iff₀ hW]; exact_mod_cast (by omega : kMax n < 16 * 2 ^ (n - 5))

theorem one_div_range {n : ℕ} : (0 : ℚ) ≤ 1 / ((2 ^ (n - 5) : ℕ) : ℚ) ∧
    1 / ((2 ^ (n - 5) : ℕ) : ℚ) < 16 := by
  have hW : (1 : ℚ) ≤ ((2 ^ (n - 5) : ℕ) : ℚ) := by exact_mod_cast Nat.one_le_two_pow
  refine ⟨by positivity, ?_⟩
  rw [div_lt_iff₀ (by linarith)]; linarith

/-- A grid on which the encoder does not lose anything before its final rounding. -/
def W.grid : W → ℕ
  | .w8 => 20
  | .w16 => 53
  | _ => 64

/-- `x` is a multiple of the grid spacing. -/
def OnGrid (w : W) (x : ℚ) : Prop := ∃ j : ℤ, x * 2 ^ w.grid = j

theorem OnGrid.neg {w : W} {x : ℚ} (h : OnGrid w x) : OnGrid w (-x) := by
  obtain ⟨j, h⟩ := h; exact ⟨-j, by push_cast; rw [← h]; ring⟩

theorem OnGrid.sg {w : W} {x : ℚ} (h : OnGrid w x) (s : Bool) : OnGrid w (sg s * x) := by
  cases s
  · simpa [Takum.sg] using h
  · simpa [Takum.sg] using h.neg

theorem OnGrid.of_le {w : W} {x : ℚ} {g : ℕ} (hg : g ≤ w.grid) {j : ℤ} (h : x * 2 ^ g = j) : OnGrid w x := by
  refine ⟨j * 2 ^ (w.grid - g), ?_⟩
  push_cast
  rw [← h, mul_assoc, ← pow_add]; congr 2; omega

theorem OnGrid.clamp {w : W} {x : ℚ} (h : OnGrid w x) : OnGrid w (clampB w.encB x) := by
  have hB : OnGrid w w.encB := by
    have h1 : w.encN - 12 ≤ w.grid := by cases w <;> decide
    refine OnGrid.of_le (g := w.encN - 12) h1 (j := 255 * 2 ^ (w.encN - 12) - 1) ?_
    unfold W.encB; push_cast; field_simp
  unfold clampB
  rcases max_choice (-w.encB) (min x w.encB) with e | e <;> rw [e]
  · exact hB.neg
  · rcases min_choice x w.encB with e | e <;> rw [e]
    · exact h
    · exact hB

theorem OnGrid.add {w : W} {x y : ℚ} (h : OnGrid w x) (h' : OnGrid w y) : OnGrid w (x + y) := by
  obtain ⟨j, h⟩ := h; obtain ⟨k, h'⟩ := h'
  exact ⟨j + k, by push_cast; rw [← h, ← h']; ring⟩

theorem OnGrid.sub {w : W} {x y : ℚ} (h : OnGrid w x) (h' : OnGrid w y) : OnGrid w (x - y) := by
  rw [sub_eq_add_neg]; exact h.add h'.neg

theorem fract_rep {F : Fmt} {g : ℕ} (h1 : g ≤ F.prec) (h2 : F.emin ≤ -(g : ℤ)) {x : ℚ} {j : ℤ}
    (h : x * 2 ^ g = j) : F.Rep (Int.fract x) := by
  refine Fmt.Rep.of_lt (j - ⌊x⌋ * 2 ^ g) (-(g : ℤ)) ?_ h2 ?_
  · push_cast
    rw [← h, zpow_neg, zpow_natCast]
    unfold Int.fract; field_simp
  · rw [abs_of_nonneg (Int.fract_nonneg x)]
    exact lt_of_lt_of_le (Int.fract_lt_one x) (one_le_zpow₀ (by norm_num) (by omega))

theorem yv_grid {w : W} {x : ℚ} (h : OnGrid w x) : yv w.encF x = x := by
  obtain ⟨j, hj⟩ := h
  have hg : w.grid ≤ 64 := by cases w <;> decide
  refine yv_eq _ (j := j * 2 ^ (64 - w.grid)) ?_ (fract_rep (g := w.grid) ?_ ?_ hj)
  · push_cast
    rw [← hj, mul_assoc, ← pow_add]; congr 2; omega
  · cases w <;> decide
  · cases w <;> decide

theorem encU_mono (w : W) {x y : ℚ} (h : x ≤ y) : w.encU x ≤ w.encU y := by
  have key : ∀ w : W, w ≠ .w8 → w.encU x ≤ w.encU y := by
    intro w hw
    rw [encU_ne w hw, encU_ne w hw]
    obtain ⟨f1, f2, f3⟩ := w.encF_facts
    obtain ⟨b1, b2⟩ := encB_lt w
    have hB : (0 : ℚ) ≤ w.encB := by linarith
    have hm : ∀ z, -w.encB ≤ yv w.encF (clampB w.encB z) ∧ yv w.encF (clampB w.encB z) ≤ w.encB := by
      intro z
      have g1 : yv w.encF (w.encB) = w.encB := by
        cases w
        · exact absurd rfl hw
        · exact (by decide +kernel : yv b64 (255 - 1 / 2 ^ 4) = 255 - 1 / 2 ^ 4)
        · exact (by decide +kernel : yv x80 (255 - 1 / 2 ^ 20) = 255 - 1 / 2 ^ 20)
        · exact (by decide +kernel : yv x80 (255 - 1 / 2 ^ 52) = 255 - 1 / 2 ^ 52)
      have g2 : yv w.encF (-w.encB) = -w.encB := by
        cases w
        · exact absurd rfl hw
        · exact (by decide +kernel : yv b64 (-(255 - 1 / 2 ^ 4)) = -(255 - 1 / 2 ^ 4))
        · exact (by decide +kernel : yv x80 (-(255 - 1 / 2 ^ 20)) = -(255 - 1 / 2 ^ 20))
        · exact (by decide +kernel : yv x80 (-(255 - 1 / 2 ^ 52)) = -(255 - 1 / 2 ^ 52))
      obtain ⟨c1, c2⟩ := clampB_le hB z
      constructor
      · have := yv_mono w.encF (by omega) (by omega) c1; rwa [g2] at this
      · have := yv_mono w.encF (by omega) (by omega) c2; rwa [g1] at this
    apply psiInv_mono
    · linarith [(hm x).1]
    · exact yv_mono _ (by omega) (by omega) (clampB_mono _ h)
    · linarith [(hm y).2]
  by_cases hw : w = .w8
  · subst hw
    rw [encU_w8, encU_w8]
    apply div_le_div_of_nonneg_right _ (by positivity)
    exact_mod_cast nearK_mono _ (key .w32 (by decide))
  · exact key w hw

/-- On the grid nothing is lost. -/
theorem encU_grid {w : W} {x : ℚ} (h : OnGrid w x) : w.encU x = psiInv (clampB w.encB x) := by
  by_cases hw : w = .w8
  · subst hw
    have h32 : OnGrid .w32 x := by
      obtain ⟨j, hj⟩ := h; exact OnGrid.of_le (g := 20) (by decide) hj
    have hc := h.clamp
    have hc32 := h32.clamp
    have hBB : W.w8.encB = W.w32.encB := rfl
    rw [encU_w8, encU_ne .w32 (by decide), yv_grid hc32, hBB]
    rw [hBB] at hc
    have hB := encB_lt .w32
    obtain ⟨c1, c2⟩ := clampB_le (by linarith : (0 : ℚ) ≤ W.w32.encB) x
    have e1 := encB_psi .w32
    have e2 := encB_psi' .w32
    have hN : W.w32.encN = W.w32.n := by decide
    rw [hN] at e1 e2
    set y := clampB W.w32.encB x with hy
    obtain ⟨u0, u16, hu⟩ := psiInv_spec (y := y) (by linarith) (by linarith)
    have hW : (0 : ℚ) < ((2 ^ (W.w32.n - 5) : ℕ) : ℚ) := by positivity
    obtain ⟨k1, k2⟩ := kMax_div_range (n := W.w32.n) (by decide)
    obtain ⟨k3, k4⟩ := one_div_range (n := W.w32.n)
    have l1 : 1 / ((2 ^ (W.w32.n - 5) : ℕ) : ℚ) ≤ psiInv y := by
      rw [← psi_le_iff k3 k4 u0 u16, hu, ← e2]; exact c1
    have l2 : psiInv y ≤ (kMax W.w32.n : ℚ) / ((2 ^ (W.w32.n - 5) : ℕ) : ℚ) := by
      rw [← psi_le_iff u0 u16 k1 k2, hu, ← e1]; exact c2
    -- the position is an integer
    have hint : ∃ k : ℤ, psiInv y * ((2 ^ (W.w32.n - 5) : ℕ) : ℚ) = k := by
      obtain ⟨j, hj⟩ := hc
      unfold psiInv
      have f1 : -255 ≤ ⌊y⌋ := by rw [Int.le_floor]; push_cast; linarith
      have f2 : ⌊y⌋ < 255 := by rw [Int.floor_lt]; push_cast; linarith
      obtain ⟨_, d16, _, _⟩ := drOf_spec f1 f2
      generalize drOf ⌊y⌋ = d at *
      have hr := rr_le d d16
      refine ⟨d * 2 ^ 27 + (j - bias d * 2 ^ 20) * 2 ^ (7 - rr d), ?_⟩
      push_cast
      rw [← hj]
      have w1 : (2 : ℚ) ^ (W.w32.n - 5) = 2 ^ 20 * 2 ^ (7 - rr d) * 2 ^ rr d := by
        rw [mul_assoc, ← pow_add, ← pow_add, show 20 + (7 - rr d + rr d) = W.w32.n - 5 by
          show _ = 27; omega]
      have w2 : (134217728 : ℚ) = 1048576 * 2 ^ (7 - rr d) * 2 ^ rr d := by
        rw [mul_assoc, ← pow_add, show 7 - rr d + rr d = 7 by omega]; norm_num
      have : W.w8.grid = 20 := rfl
      rw [w1, this, w2]
      field_simp
      norm_num
      ring
    obtain ⟨k, hk⟩ := hint
    rw [div_le_iff₀ hW, hk] at l1
    rw [le_div_iff₀ hW, hk] at l2
    have kk1 : 1 ≤ k := by exact_mod_cast l1
    have kk2 : k ≤ kMax W.w32.n := by exact_mod_cast l2
    obtain ⟨kn, rfl⟩ := Int.eq_ofNat_of_zero_le (by omega : 0 ≤ k)
    rw [nearK_of_int (k := kn) (by exact_mod_cast hk) (by omega) (by omega)]
    rw [div_eq_iff hW.ne', hk]; norm_cast
  · rw [encU_ne w hw, yv_grid h.clamp]

theorem psi_pos_grid {w : W} (t : T w) : OnGrid w (psi (pos t)) := by
  have h8 := w.n_pos
  rw [← cpm_eq (by omega)]
  have hp : p t ≤ w.grid := by
    have : p t ≤ len w.n - 5 := by unfold p; omega
    refine this.trans ?_
    cases w <;> decide
  refine OnGrid.of_le hp (j := c t * 2 ^ p t + M t) ?_
  unfold m; push_cast; field_simp

theorem ell_grid {w : W} (t : T w) : OnGrid w (ell t) := by
  have h8 := w.n_pos
  rw [ell_sg (by omega)]; exact (psi_pos_grid t).sg _

/-- Regular patterns of the final width lie within the clamping bounds. -/
theorem psi_pos_abs_le {w : W} {t : T w} (h : Regular t) : |psi (pos t)| ≤ w.encB := by
  have h8 := w.n_pos
  obtain ⟨e16, e64, en⟩ := encN_facts w
  obtain ⟨k1, k2⟩ := kMax_div_range (n := w.encN) (by omega)
  obtain ⟨k3, k4⟩ := one_div_range (n := w.encN)
  have p0 := pos_nonneg t
  have p1 := pos_lt (by omega) t
  have hl := low_pos (by omega) h
  have hu := low_lt t
  have hW : (0 : ℚ) < ((2 ^ (w.encN - 5) : ℕ) : ℚ) := by positivity
  have hW' : (0 : ℚ) < ((2 ^ (w.n - 5) : ℕ) : ℚ) := by positivity
  have hpw : 2 ^ (w.encN - 5) = 2 ^ (w.n - 5) * 2 ^ (w.encN - w.n) := by
    rw [← pow_add]; congr 1; omega
  rw [abs_le]
  constructor
  · rw [encB_psi', psi_le_iff k3 k4 p0 p1]
    unfold pos
    rw [div_le_div_iff₀ hW hW']
    have : 1 * 2 ^ (w.n - 5) ≤ low t * 2 ^ (w.encN - 5) :=
      Nat.mul_le_mul hl (Nat.pow_le_pow_right (by norm_num) (by omega))
    exact_mod_cast this
  · rw [encB_psi, psi_le_iff p0 p1 k1 k2]
    unfold pos
    rw [div_le_div_iff₀ hW' hW]
    have hkm := kMax_add_one w.encN
    have q1 : 2 ^ (w.encN - 1) = 2 ^ (w.n - 1) * 2 ^ (w.encN - w.n) := by
      rw [← pow_add]; congr 1; omega
    have hD : 0 < 2 ^ (w.encN - w.n) := by positivity
    have : low t * 2 ^ (w.encN - w.n) ≤ kMax w.encN := by
      have : (low t + 1) * 2 ^ (w.encN - w.n) ≤ 2 ^ (w.n - 1) * 2 ^ (w.encN - w.n) :=
        Nat.mul_le_mul_right _ hu
      rw [add_mul] at this
      omega
    have h3 : low t * 2 ^ (w.encN - 5) ≤ kMax w.encN * 2 ^ (w.n - 5) := by
      rw [hpw, Nat.mul_comm (2 ^ (w.n - 5)), ← Nat.mul_assoc]
      exact Nat.mul_le_mul_right _ this
    exact_mod_cast h3

theorem encU_pos {w : W} {t : T w} (h : Regular t) : w.encU (psi (pos t)) = pos t := by
  have h8 := w.n_pos
  rw [encU_grid (psi_pos_grid t), clampB_of_abs_le (psi_pos_abs_le h),
    psiInv_psi (pos_nonneg t) (pos_lt (by omega) t)]

/-- Decoding and encoding gives the same takum. -/
theorem enc_of_ell {w : W} {t : T w} (h : Regular t) {l : Fl} (hl : l.Is (ell t)) :
    fromSAndL w t.msb l = .ok t := by
  have h8 := w.n_pos
  have hrep : w.encF.Rep (ell t) := by
    have := (ell_in w t).1
    cases w
    · exact this.mono (by decide) (by decide)
    · exact this.mono (by decide) (by decide)
    · exact this.mono (by decide) (by decide)
    · exact this
  rw [fromSAndL_spec w _ hl hrep, ell_sg (by omega), sg_sq, encU_pos h,
    nearK_pos_of_regular (by omega) h, ← eq_mkT (by omega)]

/-- On the grid the encoder returns the nearest takum. -/
theorem enc_nearest {w : W} (s : Bool) {l : Fl} {q : ℚ} (hl : l.Is q) (hq : w.encF.Rep q)
    (hg : OnGrid w q) : ∃ t : T w, fromSAndL w s l = .ok t ∧ NearestEll s q t := by
  have h8 := w.n_pos
  refine ⟨_, fromSAndL_spec w s hl hq, ?_⟩
  have hx := hg.sg s
  set x := sg s * q with hxd
  have hqx : q = sg s * x := by rw [hxd, sg_sq]
  obtain ⟨b1, b2⟩ := encB_lt w
  rw [encU_grid hx, hqx]
  obtain ⟨e16, e64, en⟩ := encN_facts w
  have hWe : (0 : ℚ) < ((2 ^ (w.encN - 5) : ℕ) : ℚ) := by positivity
  have hW : (0 : ℚ) < ((2 ^ (w.n - 5) : ℕ) : ℚ) := by positivity
  obtain ⟨k1, k2⟩ := kMax_div_range (n := w.encN) (by omega)
  obtain ⟨k1', k2'⟩ := kMax_div_range (n := w.n) (by omega)
  obtain ⟨k3, k4⟩ := one_div_range (n := w.encN)
  obtain ⟨k3', k4'⟩ := one_div_range (n := w.n)
  have hpw : (2 ^ (w.encN - 5) : ℕ) = 2 ^ (w.n - 5) * 2 ^ (w.encN - w.n) := by
    rw [← pow_add]; congr 1; omega
  have hD : 1 ≤ 2 ^ (w.encN - w.n) := Nat.one_le_two_pow
  have hle : (kMax w.n : ℚ) / ((2 ^ (w.n - 5) : ℕ) : ℚ) ≤ (kMax w.encN : ℚ) / ((2 ^ (w.encN - 5) : ℕ) : ℚ) := by
    rw [div_le_div_iff₀ hW hWe]
    have hkm := kMax_add_one w.encN
    have hkm' := kMax_add_one w.n
    have q1 : 2 ^ (w.encN - 1) = 2 ^ (w.n - 1) * 2 ^ (w.encN - w.n) := by
      rw [← pow_add]; congr 1; omega
    have : kMax w.n * 2 ^ (w.encN - w.n) ≤ kMax w.encN := by
      rw [← hkm', add_mul] at q1; omega
    have h3 : kMax w.n * 2 ^ (w.encN - 5) ≤ kMax w.encN * 2 ^ (w.n - 5) := by
      rw [hpw, Nat.mul_comm (2 ^ (w.n - 5)), ← Nat.mul_assoc]
      exact Nat.mul_le_mul_right _ this
    exact_mod_cast h3
  have hge : 1 / ((2 ^ (w.encN - 5) : ℕ) : ℚ) ≤ 1 / ((2 ^ (w.n - 5) : ℕ) : ℚ) := by
    apply one_div_le_one_div_of_le hW
    exact_mod_cast Nat.pow_le_pow_right (by norm_num) (by omega)
  rcases le_total |x| w.encB with hxB | hxB
  · rw [clampB_of_abs_le hxB]
    obtain ⟨x1, x2⟩ := abs_le.mp hxB
    obtain ⟨u0, u16, hu⟩ := psiInv_spec (y := x) (by linarith) (by linarith)
    have := nearest_mkT (n := w.n) (by omega) s u0 u16
    rwa [hu] at this
  · rcases le_total 0 x with h0 | h0
    · rw [abs_of_nonneg h0] at hxB
      have hc : clampB w.encB x = w.encB := by
        unfold clampB; rw [min_eq_right hxB, max_eq_right (by linarith)]
      rw [hc, encB_psi, psiInv_psi k1 k2]
      have hkn : nearK w.n ((kMax w.encN : ℚ) / ((2 ^ (w.encN - 5) : ℕ) : ℚ)) = kMax w.n := by
        apply le_antisymm (nearK_le (by omega) _)
        have := nearK_mono w.n hle
        rwa [nearK_of_int (k := kMax w.n) (div_mul_cancel₀ _ hW.ne') (kMax_pos (by omega)) (le_refl _)] at this
      rw [hkn]
      apply nearest_high (by omega)
      refine le_trans ?_ hxB
      rw [encB_psi, psi_le_iff k1' k2' k1 k2]; exact hle
    · rw [abs_of_nonpos h0] at hxB
      have hc : clampB w.encB x = -w.encB := by
        unfold clampB; rw [min_eq_left (by linarith), max_eq_left (by linarith)]
      rw [hc, encB_psi', psiInv_psi k3 k4]
      have hkn : nearK w.n (1 / ((2 ^ (w.encN - 5) : ℕ) : ℚ)) = 1 := by
        apply le_antisymm _ (nearK_pos _ _)
        have := nearK_mono w.n hge
        rwa [nearK_of_int (u := 1 / ((2 ^ (w.n - 5) : ℕ) : ℚ)) (k := 1) (by rw [Nat.cast_one]; exact div_mul_cancel₀ _ hW.ne') (le_refl _) (kMax_pos (by omega))] at this
      rw [hkn]
      apply nearest_low (by omega)
      have : x ≤ -w.encB := by linarith
      refine le_trans this ?_
      rw [encB_psi', psi_le_iff k3 k4 k3' k4']; exact hge

/-- Order of takums of the same sign. -/
theorem toInt_mkT_le {n : ℕ} (hn : 1 ≤ n) (s : Bool) {k k' : ℕ} (h : k < 2 ^ (n - 1)) (h' : k' < 2 ^ (n - 1)) :
    (mkT n s k).toInt ≤ (mkT n s k').toInt ↔ k ≤ k' := by
  rw [toInt_mkT hn, toInt_mkT hn, mkT_msb hn s h, mkT_msb hn s h', mkT_low hn s h, mkT_low hn s h']
  omega

/-- The encoder is monotone in `sg s * l`. -/
theorem enc_mono {w : W} (s : Bool) {l l' : Fl} {q q' : ℚ} (hl : l.Is q) (hl' : l'.Is q')
    (hq : w.encF.Rep q) (hq' : w.encF.Rep q') (h : sg s * q ≤ sg s * q') :
    ∃ t t' : T w, fromSAndL w s l = .ok t ∧ fromSAndL w s l' = .ok t' ∧ t.toInt ≤ t'.toInt := by
  have h8 := w.n_pos
  refine ⟨_, _, fromSAndL_spec w s hl hq, fromSAndL_spec w s hl' hq', ?_⟩
  rw [toInt_mkT_le (by omega) s (nearK_lt (by omega) _) (nearK_lt (by omega) _)]
  exact nearK_mono _ (encU_mono w h)

/-- The encoder never returns 0 or NaR for a finite argument and keeps the sign. -/
theorem enc_regular {w : W} (s : Bool) {l : Fl} {q : ℚ} (hl : l.Is q) (hq : w.encF.Rep q) :
    ∃ t : T w, fromSAndL w s l = .ok t ∧ Regular t ∧ t.msb = s := by
  have h8 := w.n_pos
  refine ⟨_, fromSAndL_spec w s hl hq, ?_, ?_⟩
  · exact regular_mkT (by omega) s (nearK_pos _ _) (nearK_lt (by omega) _)
  · exact mkT_msb (by omega) s (nearK_lt (by omega) _)

/-- Integer negation of an assembled takum. -/
theorem neg_mkT {n : ℕ} (hn : 2 ≤ n) (s : Bool) {k : ℕ} (h1 : 1 ≤ k) (h : k < 2 ^ (n - 1)) :
    -mkT n s k = mkT n (!s) (2 ^ (n - 1) - k) := by
  apply BitVec.eq_of_toNat_eq
  have p1 : 2 ^ n = 2 * 2 ^ (n - 1) := by rw [← pow_succ']; congr 1; omega
  rw [BitVec.toNat_neg, mkT_toNat (by omega) s h, mkT_toNat (by omega) _ (by omega)]
  cases s
  · simp only [Bool.false_eq_true, if_false, Bool.not_false, if_true]
    rw [Nat.mod_eq_of_lt (by omega)]; omega
  · simp only [if_true, Bool.not_true, Bool.false_eq_true, if_false]
    rw [Nat.mod_eq_of_lt (by omega)]; omega

theorem psiInv_neg {x : ℚ} (h : |x| < 255) : psiInv (-x) = 16 - psiInv x := by
  obtain ⟨h1, h2⟩ := abs_lt.mp h
  obtain ⟨a, b, c⟩ := psiInv_spec (y := x) (by linarith) (by linarith)
  obtain ⟨a', b', c'⟩ := psiInv_spec (y := -x) (by linarith) (by linarith)
  have h0 : 0 < psiInv x := by
    rcases eq_or_lt_of_le a with h | h
    · rw [← h] at c
      have : psi 0 = -255 := by decide +kernel
      linarith
    · exact h
  exact psi_inj a' b' (by linarith) (by linarith) (by rw [c', psi_symm h0 b, c])

/-- On the grid, flipping the sign flag negates the result. -/
theorem enc_neg_grid {w : W} (s : Bool) {l : Fl} {q : ℚ} (hl : l.Is q) (hq : w.encF.Rep q)
    (hg : OnGrid w q) : ∃ t : T w, fromSAndL w s l = .ok t ∧ fromSAndL w (!s) l = .ok (-t) := by
  have h8 := w.n_pos
  refine ⟨_, fromSAndL_spec w s hl hq, ?_⟩
  rw [fromSAndL_spec w _ hl hq, neg_mkT (by omega) s (nearK_pos _ _) (nearK_lt (by omega) _)]
  have e : sg (!s) * q = -(sg s * q) := by cases s <;> simp [sg]
  obtain ⟨b1, b2⟩ := encB_lt w
  have hx := hg.sg s
  rw [e, encU_grid hx.neg, encU_grid hx, clampB_neg (by linarith), psiInv_neg, nearK_symm (by omega)]
  exact lt_of_le_of_lt (clampB_abs (by linarith) _) b1

end Takum
