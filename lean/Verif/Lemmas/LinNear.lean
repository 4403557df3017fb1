import Verif.Lemmas.Order

/-! # Nearest on the logarithmic scale implies nearest linear value (12 bits and more) -/

namespace Takum
open Spec

theorem lam_affine {j : ℤ} {x : ℚ} (h1 : (j : ℚ) ≤ x) (h2 : x ≤ j + 1) :
    lam x = (1 + (x - j)) * (2 : ℚ) ^ j := by
  rcases lt_or_eq_of_le h2 with h | h
  · have : ⌊x⌋ = j := by rw [Int.floor_eq_iff]; exact ⟨h1, h⟩
    unfold lam Int.fract; rw [this]
  · have e : x = ((j + 1 : ℤ) : ℚ) := by push_cast; exact h
    have hf : ⌊x⌋ = j + 1 := by rw [e]; exact Int.floor_intCast _
    unfold lam Int.fract
    rw [hf, zpow_add_one₀ (by norm_num), e]; push_cast; ring

theorem psi_unit {n : ℕ} (hn : 12 ≤ n) {k : ℕ} (hk : k + 1 < 2 ^ (n - 1)) :
    ∃ j : ℤ, (j : ℚ) ≤ psi ((k : ℚ) / ((2 ^ (n - 5) : ℕ) : ℚ)) ∧
      psi (((k + 1 : ℕ) : ℚ) / ((2 ^ (n - 5) : ℕ) : ℚ)) ≤ j + 1 := by
  set Wn := 2 ^ (n - 5) with hW
  have hWp : 0 < Wn := by positivity
  have hWq : (0 : ℚ) < (Wn : ℚ) := by exact_mod_cast hWp
  rw [pow16 (by omega)] at hk
  set d := k / Wn with hd
  have d1 : d * Wn ≤ k := Nat.div_mul_le_self _ _
  have d2 : k < (d + 1) * Wn := by
    have := Nat.lt_div_mul_add (a := k) (b := Wn) hWp
    rw [add_mul, one_mul]; exact this
  have d16 : d < 16 := by
    by_contra h
    have : 16 * Wn ≤ d * Wn := Nat.mul_le_mul_right _ (by omega)
    omega
  set v := k - d * Wn with hv
  have hv1 : v + 1 ≤ Wn := by rw [add_mul, one_mul] at d2; omega
  have hr := rr_le d d16
  -- spacing
  set Q := 2 ^ (n - 5 - rr d) with hQ
  have hQp : 0 < Q := by positivity
  have hQW : Wn = 2 ^ rr d * Q := by rw [hW, hQ, ← pow_add]; congr 1; omega
  have hQq : (0 : ℚ) < (Q : ℚ) := by exact_mod_cast hQp
  have e1 : psi ((k : ℚ) / Wn) = bias d + (v : ℚ) / Q := by
    rw [psi_eq_piece (d := d)]
    · unfold piece
      have : (k : ℚ) = v + d * Wn := by rw [hv]; push_cast [Nat.cast_sub d1]; ring
      rw [this, hQW]; push_cast; field_simp; ring
    · rw [le_div_iff₀ hWq]; exact_mod_cast d1
    · rw [div_lt_iff₀ hWq]; exact_mod_cast d2
  have hk1 : ((k + 1 : ℕ) : ℚ) = v + 1 + d * Wn := by rw [hv]; push_cast [Nat.cast_sub d1]; ring
  have e2 : psi (((k + 1 : ℕ) : ℚ) / Wn) = bias d + ((v : ℚ) + 1) / Q := by
    have a1 : (d : ℚ) ≤ ((k + 1 : ℕ) : ℚ) / Wn := by
      rw [le_div_iff₀ hWq, hk1]; nlinarith [(Nat.cast_nonneg v : (0 : ℚ) ≤ v)]
    have a2 : ((k + 1 : ℕ) : ℚ) / Wn ≤ d + 1 := by
      rw [div_le_iff₀ hWq]; exact_mod_cast d2
    have e : psi (((k + 1 : ℕ) : ℚ) / Wn) = piece d (((k + 1 : ℕ) : ℚ) / Wn) := by
      by_cases hd15 : d < 15
      · exact psi_eq_piece' hd15 a1 a2
      · apply psi_eq_piece a1
        rw [div_lt_iff₀ hWq]
        have : d = 15 := by omega
        rw [this]
        exact_mod_cast (by omega : k + 1 < (15 + 1) * Wn)
    rw [e]
    unfold piece
    rw [hk1, hQW]; push_cast; field_simp; ring
  refine ⟨bias d + (v / Q : ℕ), ?_, ?_⟩
  · rw [e1, Int.cast_add, Int.cast_natCast]
    have : ((v / Q : ℕ) : ℚ) ≤ (v : ℚ) / Q := by
      rw [le_div_iff₀ hQq]; exact_mod_cast Nat.div_mul_le_self v Q
    linarith
  · rw [e2, Int.cast_add, Int.cast_natCast]
    have : ((v : ℚ) + 1) / Q ≤ ((v / Q : ℕ) : ℚ) + 1 := by
      rw [div_le_iff₀ hQq]
      have := Nat.lt_div_mul_add (a := v) (b := Q) hQp
      have h3 : v + 1 ≤ (v / Q + 1) * Q := by rw [add_mul, one_mul]; omega
      exact_mod_cast h3
    linarith

theorem ell_lt_mkT {n : ℕ} (hn : 5 ≤ n) {t t' : BitVec n} (hs : t.msb = t'.msb) (h : low t < low t') :
    sg t.msb * ell t < sg t.msb * ell t' := by
  rw [ell_sg hn, ell_sg hn, ← hs, sg_sq, sg_sq,
    psi_lt_iff (pos_nonneg _) (pos_lt hn _) (pos_nonneg _) (pos_lt hn _), pos_lt_iff]
  exact h

/-- Between two takums of one sign there is a neighbour of the first, and the two share a unit
interval. -/
theorem neighbour {n : ℕ} (hn : 12 ≤ n) {t t' : BitVec n} (h : Regular t) (h' : Regular t')
    (hs : t'.msb = t.msb) (hne : t' ≠ t) :
    ∃ t'' : BitVec n, Regular t'' ∧ t''.msb = t.msb ∧ t'' ≠ t ∧
      ((ell t < ell t'' ∧ ell t'' ≤ ell t') ∨ (ell t' ≤ ell t'' ∧ ell t'' < ell t)) ∧
      ∃ j : ℤ, (j : ℚ) ≤ min (ell t) (ell t'') ∧ max (ell t) (ell t'') ≤ j + 1 := by
  have hn1 : 1 ≤ n := by omega
  have hn5 : 5 ≤ n := by omega
  have hl := low_lt t
  have hl' := low_lt t'
  have hp := low_pos hn1 h
  have hp' := low_pos hn1 h'
  have hlne : low t ≠ low t' := fun e => hne (ext_low hn1 hs e.symm)
  rcases lt_or_gt_of_ne hlne with hlt | hlt
  · refine ⟨mkT n t.msb (low t + 1), regular_mkT hn1 _ (by omega) (by omega), mkT_msb hn1 _ (by omega), ?_, ?_, ?_⟩
    · intro e
      have := congrArg low e
      rw [mkT_low hn1 _ (by omega)] at this; omega
    · have a := ell_lt_mkT hn5 (t := t) (t' := mkT n t.msb (low t + 1)) (by rw [mkT_msb hn1 _ (by omega)])
        (by rw [mkT_low hn1 _ (by omega)]; omega)
      have b : sg t.msb * ell (mkT n t.msb (low t + 1)) ≤ sg t.msb * ell t' := by
        rcases eq_or_lt_of_le (show low t + 1 ≤ low t' by omega) with e | e
        · have : mkT n t.msb (low t + 1) = t' :=
            ext_low hn1 (by rw [mkT_msb hn1 _ (by omega), hs]) (by rw [mkT_low hn1 _ (by omega), e])
          rw [this]
        · have := ell_lt_mkT hn5 (t := mkT n t.msb (low t + 1)) (t' := t') (by rw [mkT_msb hn1 _ (by omega), hs])
            (by rw [mkT_low hn1 _ (by omega)]; omega)
          rw [mkT_msb hn1 _ (by omega)] at this
          exact this.le
      cases hm : t.msb <;> simp only [hm, sg, Bool.false_eq_true, if_false, if_true, one_mul, neg_mul,
        neg_lt_neg_iff, neg_le_neg_iff] at a b
      · left; exact ⟨a, b⟩
      · right; exact ⟨b, a⟩
    · obtain ⟨j, j1, j2⟩ := psi_unit hn (k := low t) (by omega)
      have e1 : ell t = sg t.msb * psi ((low t : ℚ) / ((2 ^ (n - 5) : ℕ) : ℚ)) := ell_sg hn5 t
      have e2 : ell (mkT n t.msb (low t + 1)) =
          sg t.msb * psi (((low t + 1 : ℕ) : ℚ) / ((2 ^ (n - 5) : ℕ) : ℚ)) := ell_mkT hn5 _ (by omega)
      have hlt2 : psi ((low t : ℚ) / ((2 ^ (n - 5) : ℕ) : ℚ)) ≤
          psi (((low t + 1 : ℕ) : ℚ) / ((2 ^ (n - 5) : ℕ) : ℚ)) := by
        apply psi_mono (by positivity)
        · apply div_le_div_of_nonneg_right _ (by positivity); push_cast; linarith
        · rw [div_lt_iff₀ (by positivity)]
          have : low t + 1 < 16 * 2 ^ (n - 5) := by rw [← pow16 hn5]; omega
          exact_mod_cast this
      rw [e1, e2]
      cases t.msb
      · refine ⟨j, ?_, ?_⟩ <;> simp only [sg, Bool.false_eq_true, if_false, one_mul]
        · rw [min_eq_left hlt2]; exact j1
        · rw [max_eq_right hlt2]; exact j2
      · have hj : ((-j - 1 : ℤ) : ℚ) = -(j : ℚ) - 1 := by push_cast; ring
        refine ⟨-j - 1, ?_, ?_⟩ <;> rw [hj] <;> simp only [sg, if_true, neg_mul, one_mul]
        · rw [min_eq_right (by linarith)]; linarith
        · rw [max_eq_left (by linarith)]; linarith
  · refine ⟨mkT n t.msb (low t - 1), regular_mkT hn1 _ (by omega) (by omega), mkT_msb hn1 _ (by omega), ?_, ?_, ?_⟩
    · intro e
      have := congrArg low e
      rw [mkT_low hn1 _ (by omega)] at this; omega
    · have a := ell_lt_mkT hn5 (t := mkT n t.msb (low t - 1)) (t' := t) (by rw [mkT_msb hn1 _ (by omega)])
        (by rw [mkT_low hn1 _ (by omega)]; omega)
      rw [mkT_msb hn1 _ (by omega)] at a
      have b : sg t.msb * ell t' ≤ sg t.msb * ell (mkT n t.msb (low t - 1)) := by
        rcases eq_or_lt_of_le (show low t' ≤ low t - 1 by omega) with e | e
        · have : mkT n t.msb (low t - 1) = t' :=
            ext_low hn1 (by rw [mkT_msb hn1 _ (by omega), hs]) (by rw [mkT_low hn1 _ (by omega), e])
          rw [this]
        · have := ell_lt_mkT hn5 (t := t') (t' := mkT n t.msb (low t - 1)) (by rw [mkT_msb hn1 _ (by omega), hs])
            (by rw [mkT_low hn1 _ (by omega)]; omega)
          rw [hs] at this
          exact this.le
      cases hm : t.msb <;> simp only [hm, sg, Bool.false_eq_true, if_false, if_true, one_mul, neg_mul,
        neg_lt_neg_iff, neg_le_neg_iff] at a b
      · right; exact ⟨b, a⟩
      · left; exact ⟨a, b⟩
    · obtain ⟨j, j1, j2⟩ := psi_unit hn (k := low t - 1) (by omega)
      have e1 : ell t = sg t.msb * psi (((low t - 1 + 1 : ℕ) : ℚ) / ((2 ^ (n - 5) : ℕ) : ℚ)) := by
        rw [Nat.sub_add_cancel (by omega)]; exact ell_sg hn5 t
      have e2 : ell (mkT n t.msb (low t - 1)) =
          sg t.msb * psi (((low t - 1 : ℕ) : ℚ) / ((2 ^ (n - 5) : ℕ) : ℚ)) := ell_mkT hn5 _ (by omega)
      have hlt2 : psi (((low t - 1 : ℕ) : ℚ) / ((2 ^ (n - 5) : ℕ) : ℚ)) ≤
          psi (((low t - 1 + 1 : ℕ) : ℚ) / ((2 ^ (n - 5) : ℕ) : ℚ)) := by
        apply psi_mono (by positivity)
        · apply div_le_div_of_nonneg_right _ (by positivity); push_cast; linarith
        · rw [div_lt_iff₀ (by positivity)]
          have : low t - 1 + 1 < 16 * 2 ^ (n - 5) := by rw [← pow16 hn5]; omega
          exact_mod_cast this
      rw [e1, e2]
      cases t.msb
      · refine ⟨j, ?_, ?_⟩ <;> simp only [sg, Bool.false_eq_true, if_false, one_mul]
        · rw [min_eq_right hlt2]; exact j1
        · rw [max_eq_left hlt2]; exact j2
      · have hj : ((-j - 1 : ℤ) : ℚ) = -(j : ℚ) - 1 := by push_cast; ring
        refine ⟨-j - 1, ?_, ?_⟩ <;> rw [hj] <;> simp only [sg, if_true, neg_mul, one_mul]
        · rw [min_eq_left (by linarith)]; linarith
        · rw [max_eq_right (by linarith)]; linarith

theorem linVal_sg {n : ℕ} (hn : 5 ≤ n) {t : BitVec n} (h : Regular t) :
    linVal t = some (sg t.msb * lam (ell t)) := linVal_eq hn h

/-- For 12 bits and more, nearest on the logarithmic scale is nearest in value. -/
theorem nearestLin_of_ell {n : ℕ} (hn : 12 ≤ n) {s : Bool} {x : ℚ} {t : BitVec n}
    (h : NearestEll s x t) : NearestLin (sg s * lam x) t := by
  obtain ⟨hr, hs, hmin⟩ := h
  have hn5 : 5 ≤ n := by omega
  refine ⟨hr, ?_, ?_⟩
  · rw [hs]
    have := lam_pos x
    cases s <;> simp [sg, this, this.le]
  intro t' hr' hs' a b ha hb
  rw [linVal_sg hn5 hr, Option.some.injEq] at ha
  rw [linVal_sg hn5 hr', Option.some.injEq] at hb
  rw [hs', hs] at hb
  rw [hs] at ha
  have key : ∀ y, |sg s * y - sg s * lam x| = |y - lam x| := by
    intro y; rw [← mul_sub, sg_abs]
  rw [← ha, ← hb, key, key]
  by_cases hne : t' = t
  · right; rw [hne]; exact ⟨rfl, Or.inl rfl⟩
  obtain ⟨u, ru, su, une, hbet, j, j1, j2⟩ := neighbour hn hr hr' hs' hne
  have hu := hmin u ru (by rw [su, hs])
  rw [le_min_iff] at j1
  rw [max_le_iff] at j2
  have hmono := lam_strictMono
  -- compare with the neighbour, then with `t'`
  have two : (0 : ℚ) < (2 : ℚ) ^ j := zpow_pos (by norm_num) _
  have hta : lam (ell t) = (1 + (ell t - j)) * (2 : ℚ) ^ j := lam_affine j1.1 j2.1
  have hua : lam (ell u) = (1 + (ell u - j)) * (2 : ℚ) ^ j := lam_affine j1.2 j2.2
  have even : |ell t - x| = |ell u - x| → t.toNat % 2 = 0 := by
    intro he
    rcases hu with h | ⟨_, h | h⟩
    · exact absurd he h.ne
    · exact absurd h une
    · exact h
  have hule : |ell t - x| ≤ |ell u - x| := by
    rcases hu with h | ⟨h, _⟩
    · exact h.le
    · exact h.le
  rcases hbet with ⟨b1, b2⟩ | ⟨b1, b2⟩
  · -- t < u ≤ t'
    have m2 : lam (ell u) ≤ lam (ell t') := hmono.monotone b2
    have m1 : lam (ell t) < lam (ell u) := hmono b1
    rcases le_or_gt x (ell t) with hx | hx
    · left
      have := hmono.monotone hx
      rw [abs_of_nonneg (by linarith), abs_of_nonneg (by linarith)]; linarith
    · have hxu : x ≤ ell u := by
        by_contra hc
        push Not at hc
        rw [abs_of_neg (by linarith), abs_of_neg (by linarith)] at hule
        linarith
      have hxa : lam x = (1 + (x - j)) * (2 : ℚ) ^ j := lam_affine (by linarith) (by linarith)
      have mx : lam (ell t) < lam x := hmono hx
      have mu : lam x ≤ lam (ell u) := hmono.monotone hxu
      rw [abs_of_neg (by linarith), abs_of_nonneg (by linarith)]
      rw [abs_of_neg (by linarith), abs_of_nonneg (by linarith)] at hule even
      have d1 : -(lam (ell t) - lam x) = (-(ell t - x)) * (2 : ℚ) ^ j := by rw [hta, hxa]; ring
      have d2 : lam (ell u) - lam x = (ell u - x) * (2 : ℚ) ^ j := by rw [hua, hxa]; ring
      rcases lt_or_eq_of_le hule with hlt | heq
      · left
        have := mul_lt_mul_of_pos_right hlt two
        rw [← d1, ← d2] at this; linarith
      · have : -(lam (ell t) - lam x) = lam (ell u) - lam x := by rw [d1, d2, heq]
        rcases lt_or_eq_of_le m2 with h | h
        · left; linarith
        · right; exact ⟨by linarith, Or.inr (even heq)⟩
  · have m2 : lam (ell t') ≤ lam (ell u) := hmono.monotone b1
    have m1 : lam (ell u) < lam (ell t) := hmono b2
    rcases le_or_gt (ell t) x with hx | hx
    · left
      have := hmono.monotone hx
      rw [abs_of_nonpos (by linarith), abs_of_nonpos (by linarith)]; linarith
    · have hxu : ell u ≤ x := by
        by_contra hc
        push Not at hc
        rw [abs_of_pos (by linarith), abs_of_pos (by linarith)] at hule
        linarith
      have hxa : lam x = (1 + (x - j)) * (2 : ℚ) ^ j := lam_affine (by linarith) (by linarith)
      have mx : lam x < lam (ell t) := hmono hx
      have mu : lam (ell u) ≤ lam x := hmono.monotone hxu
      rw [abs_of_pos (by linarith), abs_of_nonpos (by linarith)]
      rw [abs_of_pos (by linarith), abs_of_nonpos (by linarith)] at hule even
      have d1 : lam (ell t) - lam x = (ell t - x) * (2 : ℚ) ^ j := by rw [hta, hxa]; ring
      have d2 : -(lam (ell u) - lam x) = -(ell u - x) * (2 : ℚ) ^ j := by rw [hua, hxa]; ring
      rcases lt_or_eq_of_le hule with hlt | heq
      · left
        have := mul_lt_mul_of_pos_right hlt two
        rw [← d1, ← d2] at this; linarith
      · have : lam (ell t) - lam x = -(lam (ell u) - lam x) := by rw [d1, d2, heq]
        rcases lt_or_eq_of_le m2 with h | h
        · left; linarith
        · right; exact ⟨by linarith, Or.inr (even heq)⟩

end Takum
