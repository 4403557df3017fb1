import Verif.Props.Wider
import Verif.Lemmas.LogConv
import Verif.Lemmas.Ideal

/-!
# C118: logarithmic powers and roots are correctly rounded for every exponent and index
-/

namespace Takum
open Spec

/-- The encoder applied to a rounded position `q'` gives the takum nearest to the exact position `q`, if the two are never
separated from each other by the middle `M` of two takums. -/
theorem enc_nearest_of {w : W} (s : Bool) {q q' : ℚ} {l : Fl} (hl : l.Is q') (hr : w.encF.Rep q')
    (tie : ∀ t u : T w, q = (ell t + ell u) / 2 → q' = q ∧ OnGrid w q)
    (up : ∀ t u : T w, (ell t + ell u) / 2 < q → ∃ g, OnGrid w g ∧ w.encF.Rep g ∧ g ≤ q' ∧ ((ell t + ell u) / 2 < g ∨ g = 0 ∧ (ell t + ell u) / 2 = 0))
    (dn : ∀ t u : T w, q < (ell t + ell u) / 2 → ∃ g, OnGrid w g ∧ w.encF.Rep g ∧ q' ≤ g ∧ (g < (ell t + ell u) / 2 ∨ g = 0 ∧ (ell t + ell u) / 2 = 0)) :
    ∃ v : T w, fromSAndL w s l = .ok v ∧ NearestEll s q v := by
  obtain ⟨v, ev, rv, mv⟩ := enc_regular (w := w) s hl hr
  refine ⟨v, ev, ?_⟩
  by_cases ht : ∃ t u : T w, q = (ell t + ell u) / 2
  · obtain ⟨t, u, h⟩ := ht
    obtain ⟨e, hg⟩ := tie t u h
    rw [e] at hl hr
    obtain ⟨v', ev', hv'⟩ := enc_nearest (w := w) s hl hr hg
    rwa [Except.ok.inj (ev.symm.trans ev')]
  refine ⟨rv, mv, fun t' rt mt => ?_⟩
  obtain ⟨one, r1, m1, e1⟩ : ∃ u : T w, Regular u ∧ u.msb = s ∧ ell u = 0 := by
    obtain ⟨f1, -, f3, f4⟩ := ONE_facts w
    cases s
    · exact ⟨ONE w, f3, f1, f4⟩
    · obtain ⟨n1, -, n3, n4⟩ := regular_neg (by have := w.n_pos; omega) f3
      exact ⟨-ONE w, n3, by rw [n1, f1]; rfl, by rw [n4, f4]⟩
  rcases lt_trichotomy (ell v) (ell t') with h | h | h
  · left
    have hM : q < (ell v + ell t') / 2 := by
      rcases lt_trichotomy q ((ell v + ell t') / 2) with c | c | c
      · exact c
      · exact absurd ⟨v, t', c⟩ ht
      exfalso
      obtain ⟨g, g1, g2, g3, g4⟩ := up v t' c
      obtain ⟨u, eu, hu⟩ := enc_nearest (w := w) s (Fl.Is.mk false g) g2 g1
      have le := enc_ell_mono (Fl.Is.mk false g) hl g2 hr g3 eu ev hu.2.1 mv
      rcases g4 with g4 | ⟨rfl, g5⟩
      · have a1 : |ell u - g| ≤ |ell t' - g| := by
          rcases hu.2.2 t' rt mt with h1 | ⟨h1, -⟩ <;> linarith
        rw [abs_sub_comm, abs_of_pos (by linarith)] at a1
        rcases abs_le.mp (le_refl |ell t' - g|) with ⟨b1, b2⟩
        have : |ell t' - g| < g - ell v := abs_lt.mpr ⟨by linarith, by linarith⟩
        linarith
      · have a1 : |ell u - 0| ≤ |ell one - 0| := by
          rcases hu.2.2 one r1 m1 with h1 | ⟨h1, -⟩ <;> linarith
        rw [e1, sub_zero, sub_zero, abs_zero] at a1
        have := abs_nonpos_iff.mp a1
        linarith
    have : |ell v - q| < ell t' - q := abs_lt.mpr ⟨by linarith, by linarith⟩
    exact this.trans_le (le_abs_self _)
  · right
    refine ⟨by rw [h], Or.inl ?_⟩
    exact ell_inj (by have := w.n_pos; omega) (mt.trans mv.symm) h.symm
  · left
    have hM : (ell v + ell t') / 2 < q := by
      rcases lt_trichotomy q ((ell v + ell t') / 2) with c | c | c
      rotate_left
      · exact absurd ⟨v, t', c⟩ ht
      · exact c
      exfalso
      obtain ⟨g, g1, g2, g3, g4⟩ := dn v t' c
      obtain ⟨u, eu, hu⟩ := enc_nearest (w := w) s (Fl.Is.mk false g) g2 g1
      have le := enc_ell_mono hl (Fl.Is.mk false g) hr g2 g3 ev eu mv hu.2.1
      rcases g4 with g4 | ⟨rfl, g5⟩
      · have a1 : |ell u - g| ≤ |ell t' - g| := by
          rcases hu.2.2 t' rt mt with h1 | ⟨h1, -⟩ <;> linarith
        rw [abs_of_pos (by linarith)] at a1
        have : |ell t' - g| < ell v - g := abs_lt.mpr ⟨by linarith, by linarith⟩
        linarith
      · have a1 : |ell u - 0| ≤ |ell one - 0| := by
          rcases hu.2.2 one r1 m1 with h1 | ⟨h1, -⟩ <;> linarith
        rw [e1, sub_zero, sub_zero, abs_zero] at a1
        have := abs_nonpos_iff.mp a1
        linarith
    have : |ell v - q| < q - ell t' := abs_lt.mpr ⟨by linarith, by linarith⟩
    rw [abs_sub_comm (ell t')]
    exact this.trans_le (le_abs_self _)

theorem mid_multiple {w : W} (t u : T w) : (∃ j : ℤ, (ell t + ell u) / 2 * 2 ^ (w.n - 4) = j) ∧ |(ell t + ell u) / 2| ≤ 255 := by
  have h8 := w.n_pos
  obtain ⟨k, hk⟩ := ell_multiple_n t
  obtain ⟨i, hi⟩ := ell_multiple_n u
  refine ⟨⟨k + i, ?_⟩, ?_⟩
  · rw [show w.n - 4 = w.n - 5 + 1 by omega, pow_succ]; push_cast; rw [← hk, ← hi]; ring
  · have a1 := abs_le.mp (abs_ell_le t)
    have a2 := abs_le.mp (abs_ell_le u)
    exact abs_le.mpr ⟨by linarith, by linarith⟩

/-- Numbers with few digits are floats. -/
theorem rep_short {F : Fmt} {x : ℚ} {d h : ℕ} {j : ℤ} (e : x * 2 ^ d = j) (hx : |x| < 2 ^ h) (hp : d + h ≤ F.prec) (he : F.emin ≤ -d) : F.Rep x := by
  refine ⟨j, -d, ?_, ?_, he⟩
  · rw [← e, zpow_neg, zpow_natCast]; field_simp
  · have h1 : |(j : ℚ)| < 2 ^ F.prec := by
      rw [← e, abs_mul, abs_of_pos (by positivity : (0 : ℚ) < 2 ^ d)]
      calc |x| * 2 ^ d < 2 ^ h * 2 ^ d := mul_lt_mul_of_pos_right hx (by positivity)
        _ = 2 ^ (d + h) := by rw [← pow_add, add_comm]
        _ ≤ 2 ^ F.prec := pow_le_pow_right₀ (by norm_num) hp
    exact_mod_cast h1

/-- The distance of a quotient from the middle of two takums. -/
theorem index_gap {A : ℕ} {l M q : ℚ} {k j n : ℤ} (hn : n ≠ 0) (hl : l * 2 ^ A = 2 * k) (hM : M * 2 ^ A = j) (hq : q = l / n) (h : M < q) :
    1 / 2 ^ A ≤ (q - M) * |(n : ℚ)| := by
  have n0 : (n : ℚ) ≠ 0 := by exact_mod_cast hn
  have e : (q - M) * n * 2 ^ A = ((2 * k - j * n : ℤ) : ℚ) := by
    push_cast; rw [← hl, ← hM, hq]; field_simp
  have ne : (2 * k - j * n : ℤ) ≠ 0 := by
    intro h0
    rw [h0, Int.cast_zero] at e
    have : (q - M) * n * 2 ^ A ≠ 0 := mul_ne_zero (mul_ne_zero (by linarith [h] : q - M ≠ 0) n0) (by positivity)
    exact this e
  have h1 : (1 : ℚ) ≤ |((2 * k - j * n : ℤ) : ℚ)| := by exact_mod_cast Int.one_le_abs ne
  rw [← e, abs_mul, abs_mul, abs_of_pos (by linarith : 0 < q - M), abs_of_pos (by positivity : (0 : ℚ) < 2 ^ A)] at h1
  rw [div_le_iff₀ (by positivity)]; exact h1

/-- A rounded quotient stays above a middle that is below the quotient, by at least `δ`. -/
theorem quot_up {A P : ℕ} {l M q q' B δ : ℚ} {k j n : ℤ} (hn : n ≠ 0) (hl : l * 2 ^ A = 2 * k) (hM : M * 2 ^ A = j) (hq : q = l / n)
    (hl255 : |l| ≤ 255) (hB : M = 0 ∨ B ≤ |M|) (d0 : 0 < δ) (dB : δ < B)
    (hδ : 255 * δ ≤ (1 / 2 ^ A - 255 / 2 ^ P) * (B - δ))
    (s0 : 0 ≤ q → 0 ≤ q') (m0 : |q| ≤ B - δ → |q'| ≤ B - δ) (e0 : B - δ < |q| → |q' - q| ≤ |q| / 2 ^ P) (h : M < q) :
    (M ≤ 0 ∧ 0 ≤ q') ∨ (M ≤ -B ∧ -B + δ ≤ q') ∨ M + δ ≤ q' := by
  rcases le_or_gt 0 q with hq0 | hq0
  · rcases le_or_gt M 0 with hM0 | hM0
    · exact Or.inl ⟨hM0, s0 hq0⟩
    rcases hB with hB | hB
    · linarith
    right; right
    rw [abs_of_pos hM0] at hB
    have big : B - δ < |q| := by rw [abs_of_nonneg hq0]; linarith
    have g := index_gap hn hl hM hq h
    have np : 0 < |(n : ℚ)| := abs_pos.mpr (by exact_mod_cast hn)
    have ql : |q| * |(n : ℚ)| = |l| := by rw [hq, abs_div]; field_simp
    have e1 := (abs_le.mp (e0 big)).1
    have e2 : |q| / 2 ^ P * |(n : ℚ)| ≤ 255 / 2 ^ P := by
      rw [div_mul_eq_mul_div, ql]; exact div_le_div_of_nonneg_right hl255 (by positivity)
    have nb : (B - δ) * |(n : ℚ)| ≤ 255 := by nlinarith
    have : δ * |(n : ℚ)| ≤ 1 / 2 ^ A - 255 / 2 ^ P := by
      have : δ * |(n : ℚ)| * (B - δ) ≤ (1 / 2 ^ A - 255 / 2 ^ P) * (B - δ) := by nlinarith
      exact le_of_mul_le_mul_right this (by linarith)
    have : (M + δ) * |(n : ℚ)| ≤ q' * |(n : ℚ)| := by nlinarith
    exact le_of_mul_le_mul_right this np
  · have hM0 : M < 0 := h.trans hq0
    rcases hB with hB | hB
    · linarith
    rw [abs_of_neg hM0] at hB
    rcases le_or_gt |q| (B - δ) with c | big
    · right; left
      exact ⟨by linarith, by linarith [(abs_le.mp (m0 c)).1]⟩
    right; right
    have g := index_gap hn hl hM hq h
    have np : 0 < |(n : ℚ)| := abs_pos.mpr (by exact_mod_cast hn)
    have ql : |q| * |(n : ℚ)| = |l| := by rw [hq, abs_div]; field_simp
    have e1 := (abs_le.mp (e0 big)).1
    have e2 : |q| / 2 ^ P * |(n : ℚ)| ≤ 255 / 2 ^ P := by
      rw [div_mul_eq_mul_div, ql]; exact div_le_div_of_nonneg_right hl255 (by positivity)
    have nb : (B - δ) * |(n : ℚ)| ≤ 255 := by nlinarith
    have : δ * |(n : ℚ)| ≤ 1 / 2 ^ A - 255 / 2 ^ P := by
      have : δ * |(n : ℚ)| * (B - δ) ≤ (1 / 2 ^ A - 255 / 2 ^ P) * (B - δ) := by nlinarith
      exact le_of_mul_le_mul_right this (by linarith)
    have : (M + δ) * |(n : ℚ)| ≤ q' * |(n : ℚ)| := by nlinarith
    exact le_of_mul_le_mul_right this np


/-- A margin `δ` for the middles of at least `B`, and the points at that margin are known to the encoder. -/
structure Margin (w : W) (M B δ : ℚ) : Prop where
  d0 : 0 < δ
  dB : δ < B
  hδ : 255 * δ ≤ (1 / 2 ^ (w.n - 4) - 255 / 2 ^ w.lF.prec) * (B - δ)
  hM : M = 0 ∨ B ≤ |M|
  rep : w.lF.Rep (B - δ)
  big : 255 / 2 ^ w.lF.prec ≤ B - δ
  gB : OnGrid w (B - δ)
  gP : OnGrid w (M + δ) ∧ w.encF.Rep (M + δ)
  gN : OnGrid w (M - δ) ∧ w.encF.Rep (M - δ)

theorem Margin.neg {w : W} {M B δ : ℚ} (h : Margin w M B δ) : Margin w (-M) B δ where
  d0 := h.d0
  dB := h.dB
  hδ := h.hδ
  hM := by rw [neg_eq_zero, abs_neg]; exact h.hM
  rep := h.rep
  big := h.big
  gB := h.gB
  gP := by rw [show -M + δ = -(M - δ) by ring]; exact ⟨h.gN.1.neg, h.gN.2.neg⟩
  gN := by rw [show -M - δ = -(M + δ) by ring]; exact ⟨h.gP.1.neg, h.gP.2.neg⟩

/-- The points `M ± 2^-d`. -/
theorem margin_points {w : W} {M : ℚ} {j : ℤ} {A d e h : ℕ} (hM : M * 2 ^ A = j) (hAd : A + e = d) (hd : d ≤ w.grid)
    (hb : |M| + 1 / 2 ^ d < 2 ^ h) (hp : d + h ≤ w.encF.prec) (he : w.encF.emin ≤ -d) :
    (OnGrid w (M + 1 / 2 ^ d) ∧ w.encF.Rep (M + 1 / 2 ^ d)) ∧ (OnGrid w (M - 1 / 2 ^ d) ∧ w.encF.Rep (M - 1 / 2 ^ d)) := by
  have hp0 : (0 : ℚ) < 1 / 2 ^ d := by positivity
  have hd0 : (2 : ℚ) ^ d ≠ 0 := by positivity
  have e1 : (M + 1 / 2 ^ d) * 2 ^ d = ((j * 2 ^ e + 1 : ℤ) : ℚ) := by
    push_cast; rw [add_mul, one_div, inv_mul_cancel₀ hd0, ← hM, mul_assoc, ← pow_add, hAd]
  have e2 : (M - 1 / 2 ^ d) * 2 ^ d = ((j * 2 ^ e - 1 : ℤ) : ℚ) := by
    push_cast; rw [sub_mul, one_div, inv_mul_cancel₀ hd0, ← hM, mul_assoc, ← pow_add, hAd]
  obtain ⟨c, hc⟩ := Nat.exists_eq_add_of_le hd
  have grid : ∀ {x : ℚ} {i : ℤ}, x * 2 ^ d = i → OnGrid w x := by
    intro x i hx
    exact ⟨i * 2 ^ c, by rw [hc, pow_add, ← mul_assoc, hx]; push_cast; rfl⟩
  refine ⟨⟨grid e1, rep_short e1 ?_ hp he⟩, ⟨grid e2, rep_short e2 ?_ hp he⟩⟩
  · have := abs_add_le M (1 / 2 ^ d); rw [abs_of_pos hp0] at this; linarith
  · have := abs_sub M (1 / 2 ^ d); rw [abs_of_pos hp0] at this; linarith

theorem mult_ge {M : ℚ} {j : ℤ} {A : ℕ} (hM : M * 2 ^ A = j) : M = 0 ∨ 1 / 2 ^ A ≤ |M| := by
  by_cases h : j = 0
  · left; rw [h, Int.cast_zero] at hM
    rcases mul_eq_zero.mp hM with h | h
    · exact h
    · exact absurd h (by positivity)
  · right
    have : (1 : ℚ) ≤ |(j : ℚ)| := by exact_mod_cast Int.one_le_abs h
    rw [← hM, abs_mul, abs_of_pos (by positivity : (0 : ℚ) < 2 ^ A)] at this
    rw [div_le_iff₀ (by positivity)]; exact this

theorem margin_exists {w : W} (hw : w ≠ .w64) {M : ℚ} {j : ℤ} (hM : M * 2 ^ (w.n - 4) = j) (hb : |M| ≤ 255) : ∃ B δ, Margin w M B δ := by
  cases w
  · have hg := mult_ge hM
    obtain ⟨p1, p2⟩ := margin_points (w := .w8) (A := 4) (d := 20) (e := 16) (h := 8) hM (by norm_num) (by decide)
      (by have : (1 : ℚ) / 2 ^ 20 < 1 := by norm_num
          norm_num at this ⊢; linarith) (by decide) (by decide)
    refine ⟨1 / 2 ^ 4, 1 / 2 ^ 20, ⟨by norm_num, by norm_num, by norm_num [W.n, W.lF, b32], hg, ?_, by norm_num [W.lF, b32], ⟨2 ^ 16 - 1, by norm_num [W.grid]⟩, p1, p2⟩⟩
    exact rep_short (d := 20) (h := 0) (j := 2 ^ 16 - 1) (by norm_num) (by rw [abs_of_pos] <;> norm_num) (by decide) (by decide)
  · have hg := mult_ge hM
    obtain ⟨p1, p2⟩ := margin_points (w := .w16) (A := 12) (d := 34) (e := 22) (h := 8) hM (by norm_num) (by decide)
      (by have : (1 : ℚ) / 2 ^ 34 < 1 := by norm_num
          norm_num at this ⊢; linarith) (by decide) (by decide)
    refine ⟨1 / 2 ^ 12, 1 / 2 ^ 34, ⟨by norm_num, by norm_num, by norm_num [W.n, W.lF, b32], hg, ?_, by norm_num [W.lF, b32], ⟨(2 ^ 22 - 1) * 2 ^ 19, by norm_num [W.grid]⟩, p1, p2⟩⟩
    exact ⟨2 ^ 22 - 1, -34, by norm_num, by decide, by decide⟩
  · rcases lt_or_ge |M| (1 / 2) with hs | hs
    · have hg := mult_ge hM
      obtain ⟨p1, p2⟩ := margin_points (w := .w32) (A := 28) (d := 64) (e := 36) (h := 0) hM (by norm_num) (by decide)
        (by have : (1 : ℚ) / 2 ^ 64 < 1 / 2 := by norm_num
            rw [pow_zero]; linarith) (by decide) (by decide)
      refine ⟨1 / 2 ^ 28, 1 / 2 ^ 64, ⟨by norm_num, by norm_num, by norm_num [W.n, W.lF, b64], hg, ?_, by norm_num [W.lF, b64], ⟨2 ^ 36 - 1, by norm_num [W.grid]⟩, p1, p2⟩⟩
      exact ⟨2 ^ 36 - 1, -64, by norm_num, by decide, by decide⟩
    · obtain ⟨p1, p2⟩ := margin_points (w := .w32) (A := 28) (d := 50) (e := 22) (h := 8) hM (by norm_num) (by decide)
        (by have : (1 : ℚ) / 2 ^ 50 < 1 := by norm_num
            norm_num at this ⊢; linarith) (by decide) (by decide)
      refine ⟨1 / 2, 1 / 2 ^ 50, ⟨by norm_num, by norm_num, by norm_num [W.n, W.lF, b64], Or.inr hs, ?_, by norm_num [W.lF, b64], ⟨(2 ^ 49 - 1) * 2 ^ 14, by norm_num [W.grid]⟩, p1, p2⟩⟩
      exact ⟨2 ^ 49 - 1, -50, by norm_num, by decide, by decide⟩
  · exact absurd rfl hw

/-- What is needed of the rounded quotient. -/
structure RoundedQuot (w : W) (q q' : ℚ) : Prop where
  s0 : 0 ≤ q → 0 ≤ q'
  s1 : q ≤ 0 → q' ≤ 0
  m0 : ∀ {b}, w.lF.Rep b → 255 / 2 ^ w.lF.prec ≤ b → |q| ≤ b → |q'| ≤ b
  e0 : 255 / 2 ^ w.lF.prec < |q| → q' = w.lF.rq q

theorem RoundedQuot.neg {w : W} {q q' : ℚ} (h : RoundedQuot w q q') : RoundedQuot w (-q) (-q') where
  s0 := fun h' => by linarith [h.s1 (by linarith)]
  s1 := fun h' => by linarith [h.s0 (by linarith)]
  m0 := fun r b1 b2 => by rw [abs_neg] at b2 ⊢; exact h.m0 r b1 b2
  e0 := fun h' => by rw [abs_neg] at h'; rw [h.e0 h', Fmt.rq_neg]

theorem index_up {w : W} {l M q q' B δ : ℚ} {k j n : ℤ} (hn : n ≠ 0) (hl : l * 2 ^ (w.n - 4) = 2 * k)
    (hM : M * 2 ^ (w.n - 4) = j) (hq : q = l / n) (hl255 : |l| ≤ 255) (m : Margin w M B δ) (r : RoundedQuot w q q') (h : M < q) :
    ∃ g, OnGrid w g ∧ w.encF.Rep g ∧ g ≤ q' ∧ (M < g ∨ g = 0 ∧ M = 0) := by
  have hd := m.d0
  have hp : ∀ {x : ℚ}, B - δ < |x| → |w.lF.rq x - x| ≤ |x| / 2 ^ w.lF.prec := by
    intro x hx
    have hx' : 255 / 2 ^ w.lF.prec < |x| := lt_of_le_of_lt m.big hx
    have key : ((2 : ℝ) ^ (w.lF.emin + w.lF.prec)) ≤ |(x : ℝ)| := by
      have : ((2 : ℚ) ^ (w.lF.emin + w.lF.prec)) ≤ 255 / 2 ^ w.lF.prec := by cases w <;> decide +kernel
      have := (Rat.cast_le (K := ℝ)).mpr (this.trans hx'.le)
      push_cast at this; exact this
    have := rq_real_err key
    rw [Fmt.rq_cast] at this
    have h2 : (((|w.lF.rq x - x| : ℚ)) : ℝ) ≤ ((|x| / 2 ^ w.lF.prec : ℚ) : ℝ) := by push_cast; exact this
    exact Rat.cast_le.mp h2
  rcases quot_up hn hl hM hq hl255 m.hM m.d0 m.dB m.hδ r.s0 (fun h => r.m0 m.rep m.big h)
    (fun h => by rw [r.e0 (lt_of_le_of_lt m.big h)]; exact hp h) h with ⟨h1, h2⟩ | ⟨h1, h2⟩ | h1
  · refine ⟨0, ⟨0, by simp⟩, ⟨0, w.encF.emin, by simp, by positivity, le_refl _⟩, h2, ?_⟩
    rcases h1.lt_or_eq with h1 | h1
    · exact Or.inl h1
    · exact Or.inr ⟨rfl, h1⟩
  · refine ⟨-(B - δ), m.gB.neg, (lF_rep_encF m.rep).neg, by linarith, Or.inl (by linarith)⟩
  · exact ⟨_, m.gP.1, m.gP.2, h1, Or.inl (by linarith)⟩

theorem root_rounded {w : W} (t : T w) {n : BitVec 64} (hn : n.toInt ≠ 0) :
    RoundedQuot w (ell t / n.toInt) (w.lF.rq (ell t / w.lF.rq (n.toInt : ℚ))) := by
  obtain ⟨q1, q2, q3⟩ := w.lF_prec
  obtain ⟨i1, i2, i3, i4⟩ := ofInt_is w n
  have hl := abs_ell_le t
  have rp : w.lF.Rep (2 ^ w.lF.prec) := by
    have := Fmt.Rep.zpow (F := w.lF) (by omega) (k := w.lF.prec) (by omega)
    rwa [zpow_natCast] at this
  have small : |n.toInt| ≤ 2 ^ w.lF.prec → w.lF.rq (n.toInt : ℚ) = n.toInt := by
    intro hb
    apply Fmt.rq_of_rep
    rcases hb.lt_or_eq with hb | hb
    · exact Fmt.Rep.int (by omega) hb
    · rcases abs_choice n.toInt with h' | h' <;> rw [h'] at hb
      · rw [hb]; push_cast; exact rp
      · rw [show n.toInt = -2 ^ w.lF.prec by omega]; push_cast; exact rp.neg
  have sgn : 0 < (n.toInt : ℚ) * w.lF.rq (n.toInt : ℚ) := by
    rcases lt_or_gt_of_ne hn with h | h
    · have h1 := i4 (by omega)
      have h2 : (n.toInt : ℚ) ≤ -1 := by exact_mod_cast (show n.toInt ≤ -1 by omega)
      nlinarith
    · have h1 := i3 (by omega)
      have h2 : (1 : ℚ) ≤ n.toInt := by exact_mod_cast (show 1 ≤ n.toInt by omega)
      nlinarith
  have key : ∀ {x y : ℚ}, 0 < x * y → (0 ≤ ell t / x → 0 ≤ ell t / y) ∧ (ell t / x ≤ 0 → ell t / y ≤ 0) := by
    intro x y h
    have e : ell t / y = ell t / x * (x * y) * (1 / y) ^ 2 := by
      have := left_ne_zero_of_mul h.ne'
      have := right_ne_zero_of_mul h.ne'
      field_simp
    rw [e]
    exact ⟨fun h' => mul_nonneg (mul_nonneg h' h.le) (sq_nonneg _), fun h' => mul_nonpos_of_nonpos_of_nonneg (mul_nonpos_of_nonpos_of_nonneg h' h.le) (sq_nonneg _)⟩
  refine ⟨fun h => w.lF.rq_nonneg ((key sgn).1 h), fun h => ?_, ?_, ?_⟩
  · have := w.lF.rq_nonneg (x := -(ell t / w.lF.rq (n.toInt : ℚ))) (by linarith [(key sgn).2 h])
    rw [Fmt.rq_neg] at this; linarith
  · intro b rb b1 b2
    apply w.lF.abs_rq_le (by omega) rb
    rcases le_or_gt |n.toInt| (2 ^ w.lF.prec) with h | h
    · rw [small h]; exact b2
    · refine le_trans ?_ b1
      rw [abs_div]
      have hN : (2 : ℚ) ^ w.lF.prec ≤ |w.lF.rq (n.toInt : ℚ)| := by
        have h' : (2 : ℚ) ^ w.lF.prec ≤ |(n.toInt : ℚ)| := by exact_mod_cast h.le
        have := lF_mono w h'
        rw [w.lF.rq_of_rep rp] at this
        rcases abs_choice (n.toInt : ℚ) with c | c <;> rw [c] at this
        · exact this.trans (le_abs_self _)
        · rw [Fmt.rq_neg] at this; exact this.trans (neg_le_abs _)
      exact div_le_div₀ (by norm_num) hl (by positivity) hN
  · intro h
    rw [small]
    by_contra hc
    rw [not_le] at hc
    have h' : (2 : ℚ) ^ w.lF.prec ≤ |(n.toInt : ℚ)| := by exact_mod_cast hc.le
    have : |ell t / (n.toInt : ℚ)| ≤ 255 / 2 ^ w.lF.prec := by
      rw [abs_div]; exact div_le_div₀ (by norm_num) hl (by positivity) h'
    linarith


theorem mid_grid {w : W} (hw : w ≠ .w64) {M : ℚ} {j : ℤ} (hM : M * 2 ^ (w.n - 4) = j) (hb : |M| ≤ 255) : OnGrid w M ∧ w.lF.Rep M := by
  have hd : w.n - 4 ≤ w.grid ∧ w.n - 4 + 8 ≤ w.lF.prec ∧ w.lF.emin ≤ -(w.n - 4 : ℕ) := by
    cases w
    rotate_right
    · exact absurd rfl hw
    all_goals decide
  obtain ⟨c, hc⟩ := Nat.exists_eq_add_of_le hd.1
  exact ⟨⟨j * 2 ^ c, by rw [hc, pow_add, ← mul_assoc, hM]; push_cast; rfl⟩,
    rep_short (h := 8) hM (by norm_num; linarith) hd.2.1 hd.2.2⟩

/-- C118: roots of logarithmic takums of 8, 16 and 32 bits are correctly rounded, for every index. -/
theorem root_nearest (w : W) (hw : w ≠ .w64) (t : T w) (h : Regular t) (n : BitVec 64) (hn : n ≠ 0#64) (ho : t.toInt < 0 → n.toInt % 2 = 1) :
    ∃ (x : ℝ) (v : T w), logVal t = some x ∧ root w t n = .ok v ∧
      NearestLog ((if x < 0 then -1 else 1) * |x| ^ (1 / (n.toInt : ℝ))) v := by
  have h8 := w.n_pos
  rw [isNeg_iff] at ho
  obtain ⟨l, hl, e⟩ := root_regular h hn ho
  have hne : n.toInt ≠ 0 := by
    intro e; apply hn
    exact BitVec.eq_of_toInt_eq (by rw [e]; simp)
  have r := root_rounded t hne
  obtain ⟨k, hk⟩ := ell_multiple_n t
  have hk2 : ell t * 2 ^ (w.n - 4) = 2 * k := by
    rw [show w.n - 4 = w.n - 5 + 1 by omega, pow_succ, ← mul_assoc, hk]; ring
  obtain ⟨v, e', hv⟩ := enc_nearest_of (w := w) t.msb (q := ell t / n.toInt) hl (lF_rep_encF (lF_rq_rep w _)) (fun a b hM => by
      obtain ⟨⟨j, hj⟩, hb⟩ := mid_multiple a b
      rw [← hM] at hj hb
      obtain ⟨g1, g2⟩ := mid_grid hw hj hb
      refine ⟨?_, g1⟩
      rcases mult_ge hj with h0 | h0
      · rw [h0]; exact le_antisymm (by have := r.s1 h0.le; exact this) (r.s0 h0.ge)
      · rw [r.e0 (lt_of_lt_of_le ?_ h0), w.lF.rq_of_rep g2]
        cases w
        rotate_right
        · exact absurd rfl hw
        all_goals decide +kernel) (fun a b hM => by
      obtain ⟨⟨j, hj⟩, hb⟩ := mid_multiple a b
      obtain ⟨B, δ, m⟩ := margin_exists hw hj hb
      exact index_up hne hk2 hj rfl (abs_ell_le t) m r hM) (fun a b hM => by
      obtain ⟨⟨j, hj⟩, hb⟩ := mid_multiple a b
      obtain ⟨B, δ, m⟩ := margin_exists hw hj hb
      obtain ⟨g, g1, g2, g3, g4⟩ := index_up (l := -ell t) (k := -k) (j := -j) hne (by push_cast; rw [neg_mul, hk2]; ring)
        (by push_cast; rw [← hj]; ring) (by rw [neg_div]) (by rw [abs_neg]; exact abs_ell_le t) m.neg r.neg (by linarith)
      refine ⟨-g, g1.neg, g2.neg, by linarith, ?_⟩
      rcases g4 with g4 | ⟨g4, g5⟩
      · left; linarith
      · right; exact ⟨by rw [g4, neg_zero], by linarith⟩)
  refine ⟨_, v, logVal_regular (by omega) h, by rw [e, e'], ?_⟩
  have hp := logG_pos (ell t)
  have e1 : (if ((sg t.msb : ℚ) : ℝ) * logG (ell t) < 0 then (-1 : ℝ) else 1) = ((sg t.msb : ℚ) : ℝ) := by
    cases t.msb <;> simp [sg, hp, hp.le]
  have e2 : |((sg t.msb : ℚ) : ℝ) * logG (ell t)| = logG (ell t) := by
    rw [abs_mul, abs_of_pos hp]; cases t.msb <;> simp [sg]
  have e3 : logG (ell t) ^ (1 / (n.toInt : ℝ)) = logG (ell t / n.toInt) := by
    rw [logG_exp, logG_exp, ← Real.exp_mul]; congr 1; push_cast; ring
  rw [e1, e2, e3]; exact nearestLog_of_ell hv

/-- Not vacuous: the seventh root of a negative number, and an index beyond the integers that `float` has. -/
example : W.w16 ≠ .w64 ∧ Regular (0xb123#16 : T .w16) ∧ -7#64 ≠ 0#64 ∧ (-7#64).toInt % 2 = 1 ∧ root .w16 0xb123#16 (-7#64) = .ok 49947#16 ∧
    root .w16 0xb123#16 0x7fffffffffffffff#64 = .ok 0xc000#16 := by
  unfold Regular; decide +kernel

/-- C118 does not hold for roots of 64 bits: here the position of the root is 11/21 of the way from 1 to the next takum, the
encoder cuts it off after 64 bits, which makes a tie of it, and 1 is returned. -/
theorem root64_nearest_refuted : ∃ (t v : T .w64) (n : BitVec 64) (x : ℝ), 0 < t.toInt ∧ 0 < n.toInt ∧ logVal t = some x ∧ root .w64 t n = .ok v ∧
    ¬ NearestLog (|x| ^ (1 / (n.toInt : ℝ))) v := by
  have rt : Regular (0x400000000000000b#64 : T .w64) := by unfold Regular; decide
  refine ⟨0x400000000000000b#64, 0x4000000000000000#64, 21#64, _, by decide, by decide, logVal_regular (by decide) rt, by decide +kernel, ?_⟩
  have hp := logG_pos (ell (0x400000000000000b#64 : T .w64))
  have e1 : |((sg (0x400000000000000b#64 : T .w64).msb : ℚ) : ℝ) * logG (ell (0x400000000000000b#64 : T .w64))| = logG (ell (0x400000000000000b#64 : T .w64)) := by
    rw [abs_mul, abs_of_pos hp, show (0x400000000000000b#64 : T .w64).msb = false by decide]; simp [sg]
  have e3 : logG (ell (0x400000000000000b#64 : T .w64)) ^ (1 / (((21#64).toInt : ℤ) : ℝ)) = ((sg false : ℚ) : ℝ) * logG (ell (0x400000000000000b#64 : T .w64) / 21) := by
    rw [logG_exp, logG_exp, ← Real.exp_mul]
    simp only [sg, Bool.false_eq_true, if_false, Rat.cast_one, one_mul]
    congr 1
    rw [show (21#64).toInt = 21 by decide]; push_cast; ring
  rw [e1, e3]
  exact not_nearestLog (t' := 0x4000000000000001#64) (by decide) (by unfold Regular; decide) (by decide +kernel)

/-- Beyond the range. -/
theorem enc_saturated {w : W} (s : Bool) {q q' : ℚ} {l : Fl} (hl : l.Is q') (hr : w.encF.Rep q') (h : (256 ≤ q ∧ 256 ≤ q') ∨ (q ≤ -256 ∧ q' ≤ -256)) :
    ∃ v : T w, fromSAndL w s l = .ok v ∧ NearestEll s q v := by
  have mid : ∀ a b : T w, -255 ≤ (ell a + ell b) / 2 ∧ (ell a + ell b) / 2 ≤ 255 := fun a b => abs_le.mp (mid_multiple a b).2
  have g : OnGrid w 256 ∧ w.encF.Rep 256 := by
    refine ⟨⟨256 * 2 ^ w.grid, by push_cast; rfl⟩, ⟨1, 8, by norm_num, ?_, ?_⟩⟩ <;> cases w <;> decide
  refine enc_nearest_of s hl hr (fun a b hM => ?_) (fun a b hM => ?_) (fun a b hM => ?_)
  · have := mid a b
    rcases h with h | h <;> linarith [h.1]
  · have := mid a b
    rcases h with h | h
    · exact ⟨256, g.1, g.2, h.2, Or.inl (by linarith)⟩
    · linarith [h.1]
  · have := mid a b
    rcases h with h | h
    · linarith [h.1]
    · exact ⟨-256, g.1.neg, g.2.neg, h.2, Or.inl (by linarith)⟩

/-- C118: integer powers of logarithmic takums of 8, 16 and 32 bits are correctly rounded, for every exponent. -/
theorem integerPower_nearest (L : Libm) (w : W) (hw : w ≠ .w64) (t : T w) (h : Regular t) (n : BitVec 64) :
    ∃ (x : ℝ) (v : T w), logVal t = some x ∧ integerPower L w t n = .ok v ∧ NearestLog (x ^ n.toInt) v := by
  have h8 := w.n_pos
  obtain ⟨x, hx, hp⟩ := logVal_zpow h n.toInt
  obtain ⟨l, hl, e⟩ := integerPowerL_regular h n
  obtain ⟨q1, q2, q3⟩ := w.lF_prec
  obtain ⟨k, hk⟩ := ell_multiple_n t
  have key : ∃ v : T w, fromSAndL w (t.msb && odd n.toInt) l = .ok v ∧ NearestEll (t.msb && odd n.toInt) (ell t * n.toInt) v := by
    have hr := lF_rep_encF (lF_rq_rep w (ell t * w.lF.rq (n.toInt : ℚ)))
    have r256 : w.lF.Rep 256 := by
      refine ⟨1, 8, by norm_num, ?_, ?_⟩ <;> cases w <;> decide
    have sat : ∀ {y : ℚ}, 256 ≤ y → 256 ≤ w.lF.rq y := fun hy => by
      have := lF_mono w hy; rwa [w.lF.rq_of_rep r256] at this
    have sat' : ∀ {y : ℚ}, y ≤ -256 → w.lF.rq y ≤ -256 := fun hy => by
      have := lF_mono w hy; rwa [w.lF.rq_of_rep r256.neg] at this
    by_cases h0 : ell t = 0
    · rw [h0, zero_mul]
      rw [h0, zero_mul, Fmt.rq_zero] at hl hr
      exact enc_nearest _ hl hr ⟨0, by simp⟩
    rcases lt_or_ge |n.toInt| (2 ^ w.lF.prec) with hb | hb
    · rw [w.lF.rq_of_rep (Fmt.Rep.int (by omega) hb)] at hl hr
      rcases lt_or_ge |ell t * n.toInt| 256 with hs | hs
      · have hm : ell t * n.toInt * 2 ^ (w.n - 5) = ((k * n.toInt : ℤ) : ℚ) := by push_cast; rw [← hk]; ring
        have hd : w.n - 5 ≤ w.grid ∧ w.n - 5 + 8 ≤ w.lF.prec ∧ w.lF.emin ≤ -(w.n - 5 : ℕ) := by
          cases w
          rotate_right
          · exact absurd rfl hw
          all_goals decide
        have rep : w.lF.Rep (ell t * n.toInt) := rep_short (h := 8) hm (by rw [show (2 : ℚ) ^ 8 = 256 by norm_num]; exact hs) hd.2.1 hd.2.2
        rw [w.lF.rq_of_rep rep] at hl hr
        obtain ⟨c, hc⟩ := Nat.exists_eq_add_of_le hd.1
        exact enc_nearest _ hl hr ⟨k * n.toInt * 2 ^ c, by rw [hc, pow_add, ← mul_assoc, hm]; push_cast; rfl⟩
      · apply enc_saturated _ hl hr
        rcases le_abs.mp hs with c | c
        · exact Or.inl ⟨c, sat c⟩
        · exact Or.inr ⟨by linarith, sat' (by linarith)⟩
    · apply enc_saturated _ hl hr
      have l1 : 1 / 2 ^ (w.n - 5) ≤ |ell t| := by
        rcases mult_ge hk with c | c
        · exact absurd c h0
        · exact c
      have pw : (256 : ℚ) ≤ 1 / 2 ^ (w.n - 5) * 2 ^ w.lF.prec := by
        cases w
        rotate_right
        · exact absurd rfl hw
        all_goals decide +kernel
      have rp : w.lF.Rep (2 ^ w.lF.prec) := by
        have := Fmt.Rep.zpow (F := w.lF) (by omega) (k := w.lF.prec) (by omega)
        rwa [zpow_natCast] at this
      have big : ∀ {y : ℚ}, 2 ^ w.lF.prec ≤ |y| → 256 ≤ |ell t * y| := fun hy => by
        rw [abs_mul]
        exact pw.trans (mul_le_mul l1 hy (by positivity) (abs_nonneg _))
      have hN0 : (2 : ℚ) ^ w.lF.prec ≤ |(n.toInt : ℚ)| := by exact_mod_cast hb
      have hN : (2 : ℚ) ^ w.lF.prec ≤ |w.lF.rq (n.toInt : ℚ)| ∧ 0 < (n.toInt : ℚ) * w.lF.rq (n.toInt : ℚ) := by
        have := lF_mono w hN0
        rw [w.lF.rq_of_rep rp] at this
        have p0 : (0 : ℚ) < 2 ^ w.lF.prec := by positivity
        rcases abs_choice (n.toInt : ℚ) with c | c <;> rw [c] at this hN0
        · exact ⟨this.trans (le_abs_self _), mul_pos (by linarith) (by linarith)⟩
        · rw [Fmt.rq_neg] at this; exact ⟨this.trans (neg_le_abs _), mul_pos_of_neg_of_neg (by linarith) (by linarith)⟩
      have b1 := big hN0
      have b2 := big hN.1
      have ss : 0 ≤ ell t * n.toInt * (ell t * w.lF.rq (n.toInt : ℚ)) := by
        have : ell t * n.toInt * (ell t * w.lF.rq (n.toInt : ℚ)) = ell t ^ 2 * (n.toInt * w.lF.rq (n.toInt : ℚ)) := by ring
        rw [this]; exact mul_nonneg (sq_nonneg _) hN.2.le
      rcases le_abs.mp b1 with c | c <;> rcases le_abs.mp b2 with d | d
      · exact Or.inl ⟨c, sat d⟩
      · nlinarith
      · nlinarith
      · exact Or.inr ⟨by linarith, sat' (by linarith)⟩
  obtain ⟨v, e', hv⟩ := key
  exact ⟨x, v, hx, by rw [integerPower_eq L hw, e, e'], by rw [hp]; exact nearestLog_of_ell hv⟩

/-- Not vacuous: a negative power of a negative number, and one that saturates. -/
example (L : Libm) : W.w16 ≠ .w64 ∧ Regular (0xb123#16 : T .w16) ∧ integerPower L .w16 0xb123#16 (-7#64) = .ok 57857#16 ∧
    integerPower L .w16 0xb123#16 0x7fffffffffffffff#64 = .ok 32769#16 := by
  refine ⟨by decide, by unfold Regular; decide, ?_, ?_⟩
  · change integerPowerL .w16 0xb123#16 (-7#64) = _
    decide +kernel
  · change integerPowerL .w16 0xb123#16 0x7fffffffffffffff#64 = _
    decide +kernel


end Takum
