import Verif.Props.LogArith

/-!
# C121: integer powers and roots of logarithmic takums are monotone in the base and in the index
-/

namespace Takum
open Spec

theorem sg_ell_le {w : W} {a b : T w} (hs : b.msb = a.msb) (h : a.toInt ≤ b.toInt) : sg a.msb * ell a ≤ sg a.msb * ell b := by
  have h8 := w.n_pos
  by_contra hc
  push Not at hc
  cases e : a.msb
  · rw [e] at hc hs
    simp only [sg, Bool.false_eq_true, if_false, one_mul] at hc
    have := (ell_lt_iff_pos (by omega) hs e).mp hc
    omega
  · rw [e] at hc hs
    simp only [sg, if_true, neg_mul, one_mul, neg_lt_neg_iff] at hc
    have := (ell_lt_iff_neg (by omega) e hs).mp hc
    omega

/-- The encoder applied to two rounded numbers, in both directions. -/
theorem enc_both {w : W} (s : Bool) {l l' : Fl} {q q' : ℚ} (hl : l.Is (w.lF.rq q)) (hl' : l'.Is (w.lF.rq q')) :
    ∃ t t' : T w, fromSAndL w s l = .ok t ∧ fromSAndL w s l' = .ok t' ∧ (sg s * q ≤ sg s * q' → t.toInt ≤ t'.toInt) ∧
      (sg s * q' ≤ sg s * q → t'.toInt ≤ t.toInt) := by
  have hr := fun q => lF_rep_encF (lF_rq_rep w q)
  have key : ∀ {x y : ℚ}, sg s * x ≤ sg s * y → sg s * w.lF.rq x ≤ sg s * w.lF.rq y := by
    intro x y h
    cases s
    · simp only [sg, Bool.false_eq_true, if_false, one_mul] at h ⊢; exact lF_mono w h
    · simp only [sg, if_true, neg_mul, one_mul, neg_le_neg_iff] at h ⊢; exact lF_mono w h
  obtain ⟨t, e, -⟩ := enc_regular (w := w) s hl (hr q)
  obtain ⟨t', e', -⟩ := enc_regular (w := w) s hl' (hr q')
  refine ⟨t, t', e, e', fun h => ?_, fun h => ?_⟩
  · obtain ⟨u, u', f, f', h⟩ := enc_mono s hl hl' (hr q) (hr q') (key h)
    rw [e] at f; rw [e'] at f'
    rw [Except.ok.inj f, Except.ok.inj f']; exact h
  · obtain ⟨u, u', f, f', h⟩ := enc_mono s hl' hl (hr q') (hr q) (key h)
    rw [e'] at f; rw [e] at f'
    rw [Except.ok.inj f, Except.ok.inj f']; exact h

theorem lF_rq_sign (w : W) {q : ℚ} : (0 ≤ q → 0 ≤ w.lF.rq q) ∧ (q ≤ 0 → w.lF.rq q ≤ 0) := by
  have h0 : w.lF.rq (0 : ℚ) = 0 := w.lF.rq_of_rep (Fmt.Rep.zero _)
  exact ⟨fun h => by have := lF_mono w h; rwa [h0] at this, fun h => by have := lF_mono w h; rwa [h0] at this⟩

/-- C121: for bases of the same sign, the power increases or decreases with the base as the real function `x ↦ x ^ n` does. -/
theorem integer_power_base (L : Libm) (w : W) (hw : w ≠ .w64) (a b : T w) (ha : Regular a) (hb : Regular b) (hs : a.toInt < 0 ↔ b.toInt < 0)
    (h : a.toInt ≤ b.toInt) (n : BitVec 64) :
    ∃ u v : T w, integerPower L w a n = .ok u ∧ integerPower L w b n = .ok v ∧
      (0 < a.toInt ∨ n.toInt % 2 = 1 → (0 ≤ n.toInt → u.toInt ≤ v.toInt) ∧ (n.toInt ≤ 0 → v.toInt ≤ u.toInt)) ∧
      (a.toInt < 0 → n.toInt % 2 = 0 → (0 ≤ n.toInt → v.toInt ≤ u.toInt) ∧ (n.toInt ≤ 0 → u.toInt ≤ v.toInt)) := by
  have h8 := w.n_pos
  rw [isNeg_iff, isNeg_iff] at hs
  have hs : b.msb = a.msb := by
    cases e : a.msb <;> cases e' : b.msb <;> simp_all
  have hle := sg_ell_le hs h
  obtain ⟨l, hl, e⟩ := integerPowerL_regular ha n
  obtain ⟨l', hl', e'⟩ := integerPowerL_regular hb n
  rw [hs] at e'
  obtain ⟨t, t', f, f', h1, h2⟩ := enc_both (a.msb && odd n.toInt) hl hl'
  refine ⟨t, t', by rw [integerPower_eq L hw, e, f], by rw [integerPower_eq L hw, e', f'], ?_, ?_⟩
  · intro hp
    have er : (a.msb && odd n.toInt) = a.msb := by
      rcases hp with hp | hp
      · rw [(toInt_pos_iff (by omega) ha).mp hp]; rfl
      · rw [(odd_iff _).mpr hp, Bool.and_true]
    rw [er] at h1 h2
    refine ⟨fun hn => h1 ?_, fun hn => h2 ?_⟩
    · have := (lF_rq_sign w).1 (show (0 : ℚ) ≤ n.toInt by exact_mod_cast hn)
      rw [← mul_assoc, ← mul_assoc]
      exact mul_le_mul_of_nonneg_right hle this
    · have := (lF_rq_sign w).2 (show (n.toInt : ℚ) ≤ 0 by exact_mod_cast hn)
      rw [← mul_assoc, ← mul_assoc]
      exact mul_le_mul_of_nonpos_right hle this
  · intro hp ho
    have er : (a.msb && odd n.toInt) = false := by
      rw [Bool.and_eq_false_iff]; right
      rw [← Bool.not_eq_true, odd_iff]; omega
    rw [(isNeg_iff a).mp hp] at hle
    rw [er] at h1 h2
    simp only [sg, Bool.false_eq_true, if_false, if_true, one_mul, neg_mul, neg_le_neg_iff] at h1 h2 hle
    refine ⟨fun hn => h2 ?_, fun hn => h1 ?_⟩
    · exact mul_le_mul_of_nonneg_right hle ((lF_rq_sign w).1 (show (0 : ℚ) ≤ n.toInt by exact_mod_cast hn))
    · exact mul_le_mul_of_nonpos_right hle ((lF_rq_sign w).2 (show (n.toInt : ℚ) ≤ 0 by exact_mod_cast hn))

/-- Two negative bases with an even exponent: the order is reversed. -/
example : Regular (0xb123#16 : T .w16) ∧ Regular (0xb456#16 : T .w16) ∧ (0xb123#16).toInt ≤ (0xb456#16).toInt ∧
    ((0xb123#16).toInt < 0 ↔ (0xb456#16).toInt < 0) ∧ (4#64).toInt % 2 = 0 ∧
    integerPowerL .w16 0xb123#16 4#64 = .ok 0x5bdd#16 ∧ integerPowerL .w16 0xb456#16 4#64 = .ok 0x58aa#16 := by
  unfold Regular; decide +kernel

/-- C121: an odd positive power is increasing over all numbers. -/
theorem integer_power_odd (L : Libm) (w : W) (hw : w ≠ .w64) (a b : T w) (ha : a ≠ nar w.n) (hb : b ≠ nar w.n)
    (h : a.toInt ≤ b.toInt) (n : BitVec 64) (hn : 0 < n.toInt) (ho : n.toInt % 2 = 1) :
    ∃ u v : T w, integerPower L w a n = .ok u ∧ integerPower L w b n = .ok v ∧ u.toInt ≤ v.toInt := by
  have h8 := w.n_pos
  have z : integerPower L w 0#w.n n = .ok 0#w.n := (integerPower_special L w hw 0#w.n n).2.mpr ⟨rfl, hn⟩
  have pos : ∀ {v : T w}, Regular v → ¬ v.toInt < 0 → 0 ≤ v.toInt := fun _ h => not_lt.mp h
  by_cases a0 : a = 0#w.n
  · subst a0
    rw [BitVec.toInt_zero] at h
    by_cases b0 : b = 0#w.n
    · subst b0; exact ⟨_, _, z, z, le_rfl⟩
    · obtain ⟨v, e, r, s⟩ := integerPower_regular L w hw b ⟨b0, hb⟩ n
      refine ⟨_, v, z, e, ?_⟩
      rw [BitVec.toInt_zero]
      by_contra hc
      have := (s.mp (not_le.mp hc)).1
      omega
  obtain ⟨u, e, r, s⟩ := integerPower_regular L w hw a ⟨a0, ha⟩ n
  by_cases b0 : b = 0#w.n
  · subst b0
    rw [BitVec.toInt_zero] at h
    refine ⟨u, _, e, z, ?_⟩
    rw [BitVec.toInt_zero]
    have hne : a.toInt ≠ 0 := fun h0 => a0 (BitVec.eq_of_toInt_eq (by rw [h0, BitVec.toInt_zero]))
    exact (s.mpr ⟨by omega, ho⟩).le
  obtain ⟨v, e', r', s'⟩ := integerPower_regular L w hw b ⟨b0, hb⟩ n
  by_cases hs : a.toInt < 0 ↔ b.toInt < 0
  · obtain ⟨u', v', f, f', h1, -⟩ := integer_power_base L w hw a b ⟨a0, ha⟩ ⟨b0, hb⟩ hs h n
    exact ⟨u', v', f, f', (h1 (.inr ho)).1 hn.le⟩
  · refine ⟨u, v, e, e', ?_⟩
    have h1 : a.toInt < 0 := by by_contra hc; exact hs (by omega)
    have h2 : ¬ b.toInt < 0 := fun hc => hs (by omega)
    have := s.mpr ⟨h1, ho⟩
    have : ¬ v.toInt < 0 := fun hc => h2 (s'.mp hc).1
    omega

example : (0xb123#16 : T .w16) ≠ nar 16 ∧ (0x4123#16 : T .w16) ≠ nar 16 ∧ (0xb123#16).toInt ≤ (0x4123#16).toInt ∧ 0 < (3#64).toInt ∧
    (3#64).toInt % 2 = 1 := by decide +kernel

/-- C121: the power of a number that is at least 1 increases with the exponent, that of a positive number below 1 decreases. -/
theorem integer_power_exponent (L : Libm) (w : W) (hw : w ≠ .w64) (t : T w) (ht : 0 < t.toInt) (n n' : BitVec 64) (h : n.toInt ≤ n'.toInt) :
    ∃ u v : T w, integerPower L w t n = .ok u ∧ integerPower L w t n' = .ok v ∧
      ((ONE w).toInt ≤ t.toInt → u.toInt ≤ v.toInt) ∧ (t.toInt ≤ (ONE w).toInt → v.toInt ≤ u.toInt) := by
  have h8 := w.n_pos
  obtain ⟨o1, -, o3, o4⟩ := ONE_facts w
  have hm : t.msb = false := by
    rw [← Bool.not_eq_true, ← isNeg_iff]; omega
  have rt : Regular t := ⟨by rintro rfl; rw [BitVec.toInt_zero] at ht; omega, ne_nar_of_nonneg (by omega) hm⟩
  obtain ⟨l, hl, e⟩ := integerPowerL_regular rt n
  obtain ⟨l', hl', e'⟩ := integerPowerL_regular rt n'
  rw [hm, Bool.false_and] at e e'
  obtain ⟨u, v, f, f', h1, h2⟩ := enc_both false hl hl'
  simp only [sg, Bool.false_eq_true, if_false, one_mul] at h1 h2
  have hr := lF_mono w (show (n.toInt : ℚ) ≤ n'.toInt by exact_mod_cast h)
  refine ⟨u, v, by rw [integerPower_eq L hw, e, f], by rw [integerPower_eq L hw, e', f'], fun hc => h1 ?_, fun hc => h2 ?_⟩
  · have := sg_ell_le (a := ONE w) (b := t) (by rw [hm, o1]) hc
    rw [o1, o4] at this
    simp only [sg, Bool.false_eq_true, if_false, one_mul] at this
    exact mul_le_mul_of_nonneg_left hr this
  · have := sg_ell_le (a := t) (b := ONE w) (by rw [hm, o1]) hc
    rw [hm, o4] at this
    simp only [sg, Bool.false_eq_true, if_false, one_mul] at this
    exact mul_le_mul_of_nonpos_left hr this

example : 0 < (0x4123#16).toInt ∧ (-2#64).toInt ≤ (5#64).toInt ∧ (ONE .w16).toInt ≤ (0x4123#16).toInt := by decide

theorem index_ne {n : BitVec 64} (h : n.toInt ≠ 0) : n ≠ 0#64 := by rintro rfl; exact h rfl

/-- C121: the root increases with the radicand for a positive index and decreases on either side of 0 for a negative one. -/
theorem root_monotone (w : W) (a b : T w) (ha : Regular a) (hb : Regular b) (hs : a.toInt < 0 ↔ b.toInt < 0)
    (h : a.toInt ≤ b.toInt) (n : BitVec 64) (hn : n.toInt ≠ 0) (ho : a.toInt < 0 → n.toInt % 2 = 1) :
    ∃ u v : T w, root w a n = .ok u ∧ root w b n = .ok v ∧ (0 < n.toInt → u.toInt ≤ v.toInt) ∧ (n.toInt < 0 → v.toInt ≤ u.toInt) := by
  rw [isNeg_iff] at ho
  rw [isNeg_iff, isNeg_iff] at hs
  have hs : b.msb = a.msb := by
    cases e : a.msb <;> cases e' : b.msb <;> simp_all
  have hle := sg_ell_le hs h
  obtain ⟨l, hl, e⟩ := root_regular ha (index_ne hn) ho
  obtain ⟨l', hl', e'⟩ := root_regular hb (index_ne hn) (by rw [hs]; exact ho)
  rw [hs] at e'
  obtain ⟨t, t', f, f', h1, h2⟩ := enc_both a.msb hl hl'
  refine ⟨t, t', e.trans f, e'.trans f', fun hp => h1 ?_, fun hp => h2 ?_⟩
  · rw [← mul_div_assoc, ← mul_div_assoc]
    exact div_le_div_of_nonneg_right hle ((lF_rq_sign w).1 (by exact_mod_cast hp.le))
  · rw [← mul_div_assoc, ← mul_div_assoc]
    exact div_le_div_of_nonpos_of_le ((lF_rq_sign w).2 (by exact_mod_cast hp.le)) hle

example : Regular (0xb123#16 : T .w16) ∧ Regular (0xb456#16 : T .w16) ∧ (0xb123#16).toInt ≤ (0xb456#16).toInt ∧
    ((0xb123#16).toInt < 0 ↔ (0xb456#16).toInt < 0) ∧ (-3#64).toInt ≠ 0 ∧ (-3#64).toInt % 2 = 1 := by unfold Regular; decide

/-- C121: the root of a number that is at least 1 decreases with a positive index, that of a positive number below 1 increases. -/
theorem root_index (w : W) (t : T w) (ht : 0 < t.toInt) (n n' : BitVec 64) (h0 : 0 < n.toInt) (h : n.toInt ≤ n'.toInt) :
    ∃ u v : T w, root w t n = .ok u ∧ root w t n' = .ok v ∧
      ((ONE w).toInt ≤ t.toInt → v.toInt ≤ u.toInt) ∧ (t.toInt ≤ (ONE w).toInt → u.toInt ≤ v.toInt) := by
  have h8 := w.n_pos
  obtain ⟨o1, -, o3, o4⟩ := ONE_facts w
  have hm : t.msb = false := by
    rw [← Bool.not_eq_true, ← isNeg_iff]; omega
  have rt : Regular t := ⟨by rintro rfl; rw [BitVec.toInt_zero] at ht; omega, ne_nar_of_nonneg (by omega) hm⟩
  obtain ⟨l, hl, e⟩ := root_regular rt (index_ne (n := n) (by omega)) (by simp [hm])
  obtain ⟨l', hl', e'⟩ := root_regular rt (index_ne (n := n') (by omega)) (by simp [hm])
  rw [hm] at e e'
  obtain ⟨u, v, f, f', h1, h2⟩ := enc_both false hl hl'
  simp only [sg, Bool.false_eq_true, if_false, one_mul] at h1 h2
  have hr := lF_mono w (show (n.toInt : ℚ) ≤ n'.toInt by exact_mod_cast h)
  have hp := (ofInt_is w n).2.2.1 (by omega)
  have hi : (w.lF.rq (n'.toInt : ℚ))⁻¹ ≤ (w.lF.rq (n.toInt : ℚ))⁻¹ := inv_anti₀ (by linarith) hr
  simp only [div_eq_mul_inv] at h1 h2
  refine ⟨u, v, e.trans f, e'.trans f', fun hc => h2 ?_, fun hc => h1 ?_⟩
  · have := sg_ell_le (a := ONE w) (b := t) (by rw [hm, o1]) hc
    rw [o1, o4] at this
    simp only [sg, Bool.false_eq_true, if_false, one_mul] at this
    exact mul_le_mul_of_nonneg_left hi this
  · have := sg_ell_le (a := t) (b := ONE w) (by rw [hm, o1]) hc
    rw [hm, o4] at this
    simp only [sg, Bool.false_eq_true, if_false, one_mul] at this
    exact mul_le_mul_of_nonpos_left hi this

example : 0 < (0x4123#16).toInt ∧ 0 < (2#64).toInt ∧ (2#64).toInt ≤ (5#64).toInt ∧ (ONE .w16).toInt ≤ (0x4123#16).toInt := by decide

end Takum
