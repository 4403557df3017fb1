import Verif.Lemmas.RoundTrip
import Verif.Lemmas.ConstIv
import Verif.Props.ConvAccuracy

/-! # How close the two families of takums come to a number -/

namespace Takum
open Spec

theorem bias_inner : ∀ d < 16, (2 ^ rr d - 1 : ℤ) ≤ bias d ∨ bias d + 2 ^ rr d ≤ -(2 ^ rr d - 1 : ℤ) := by decide

theorem psi_step_le {V k : ℕ} (hV : 0 < V) (hk : k + 1 < 16 * V) {x : ℝ}
    (h1 : ((psi ((k : ℚ) / V) : ℚ) : ℝ) ≤ x) (h2 : x ≤ ((psi ((k + 1 : ℚ) / V) : ℚ) : ℝ)) :
    ((psi ((k + 1 : ℚ) / V) - psi ((k : ℚ) / V) : ℚ) : ℝ) ≤ (|x| + 1) / V := by
  have hVq : (0 : ℚ) < (V : ℚ) := by exact_mod_cast hV
  have hVr : (0 : ℝ) < (V : ℝ) := by exact_mod_cast hV
  set d := k / V with hd
  have d1 : d * V ≤ k := Nat.div_mul_le_self _ _
  have d2 : k < (d + 1) * V := by
    have := Nat.lt_div_mul_add (a := k) (b := V) hV
    rw [add_mul, one_mul]; exact this
  have d16 : d < 16 := by
    by_contra h
    have : 16 * V ≤ d * V := Nat.mul_le_mul_right _ (by omega)
    omega
  have a1 : (d : ℚ) ≤ (k : ℚ) / V := by rw [le_div_iff₀ hVq]; exact_mod_cast d1
  have a2 : (k + 1 : ℚ) / V ≤ d + 1 := by rw [div_le_iff₀ hVq]; exact_mod_cast d2
  have a3 : (k : ℚ) / V < (k + 1 : ℚ) / V := by
    apply div_lt_div_of_pos_right _ hVq; linarith
  have e1 : psi ((k : ℚ) / V) = piece d ((k : ℚ) / V) := psi_eq_piece a1 (by linarith)
  have e2 : psi ((k + 1 : ℚ) / V) = piece d ((k + 1 : ℚ) / V) := by
    by_cases hd15 : d < 15
    · exact psi_eq_piece' hd15 (by linarith) a2
    · apply psi_eq_piece (by linarith)
      rw [div_lt_iff₀ hVq]
      have : d = 15 := by omega
      rw [this]
      exact_mod_cast (by omega : k + 1 < (15 + 1) * V)
  have e3 : psi ((k + 1 : ℚ) / V) - psi ((k : ℚ) / V) = 2 ^ rr d / V := by
    rw [e1, e2]; unfold piece; field_simp; ring
  rw [e3]
  push_cast
  apply div_le_div_of_nonneg_right _ hVr.le
  have pd : (0 : ℚ) < 2 ^ rr d := by positivity
  rcases bias_inner d d16 with b | b
  · have b' : (2 ^ rr d - 1 : ℚ) ≤ bias d := by exact_mod_cast b
    have : (2 ^ rr d - 1 : ℚ) ≤ psi ((k : ℚ) / V) := by rw [e1]; unfold piece; nlinarith
    have t := (Rat.cast_le (K := ℝ)).mpr this
    push_cast at t
    have := le_abs_self x
    linarith
  · have b' : (bias d + 2 ^ rr d : ℚ) ≤ -(2 ^ rr d - 1) := by exact_mod_cast b
    have : psi ((k + 1 : ℚ) / V) ≤ -(2 ^ rr d - 1 : ℚ) := by rw [e2]; unfold piece; nlinarith
    have t := (Rat.cast_le (K := ℝ)).mpr this
    push_cast at t
    have := neg_le_abs x
    linarith

/-- Neighbouring positions around a number. -/
theorem psi_bracket {n : ℕ} (hn : 16 ≤ n) {x : ℝ} (hx : |x| ≤ 254.5) :
    ∃ k : ℕ, 1 ≤ k ∧ k + 1 < 2 ^ (n - 1) ∧ ((psi ((k : ℚ) / ((2 ^ (n - 5) : ℕ) : ℚ)) : ℚ) : ℝ) ≤ x ∧
      x ≤ ((psi (((k + 1 : ℕ) : ℚ) / ((2 ^ (n - 5) : ℕ) : ℚ)) : ℚ) : ℝ) := by
  classical
  have hs : (1 : ℝ) / 2 ^ (n - 12) ≤ 1 / 4 := by
    apply one_div_le_one_div_of_le (by norm_num)
    calc (4 : ℝ) = 2 ^ 2 := by norm_num
      _ ≤ _ := pow_le_pow_right₀ (by norm_num) (by omega)
  have hmax := congrArg (fun q : ℚ => (q : ℝ)) (psi_kMax (n := n) (by omega))
  have hone := congrArg (fun q : ℚ => (q : ℝ)) (psi_one (n := n) (by omega))
  push_cast at hmax hone
  rw [abs_le] at hx
  norm_num at hx
  have hex : ∃ k : ℕ, x ≤ ((psi ((k : ℚ) / ((2 ^ (n - 5) : ℕ) : ℚ)) : ℚ) : ℝ) := by
    refine ⟨kMax n, ?_⟩
    push_cast
    rw [hmax]; linarith
  have km := kMax_add_one n
  set K := Nat.find hex with hK
  have K1 := Nat.find_spec hex
  rw [← hK] at K1
  have K2 : K ≤ kMax n := Nat.find_min' hex (by push_cast; rw [hmax]; linarith)
  have lt : ∀ j < K, ((psi ((j : ℚ) / ((2 ^ (n - 5) : ℕ) : ℚ)) : ℚ) : ℝ) < x := fun j hj => not_le.mp (Nat.find_min hex hj)
  have K3 : 2 ≤ K := by
    by_contra hc
    have h01 : K = 0 ∨ K = 1 := by omega
    have hle : ((psi ((K : ℚ) / ((2 ^ (n - 5) : ℕ) : ℚ)) : ℚ) : ℝ) ≤ -(255 - 1 / 2 ^ (n - 12)) := by
      rw [← hone]
      rcases h01 with h | h <;> rw [h]
      · apply Rat.cast_le.mpr
        push_cast
        apply psi_mono (by simp) (by simp)
        rw [div_lt_iff₀ (by positivity)]
        have : (1 : ℚ) ≤ 2 ^ (n - 5) := one_le_pow₀ (by norm_num)
        linarith
      · push_cast; exact le_refl _
    linarith
  refine ⟨K - 1, by omega, by omega, (lt (K - 1) (by omega)).le, ?_⟩
  rw [Nat.sub_add_cancel (by omega)]
  exact K1

/-- Neighbouring takums around a number. -/
theorem ell_bracket {n : ℕ} (hn : 16 ≤ n) (s : Bool) {x : ℝ} (hx : |x| ≤ 254.5) :
    ∃ e₁ e₂ : BitVec n, Regular e₁ ∧ Regular e₂ ∧ e₁.msb = s ∧ e₂.msb = s ∧ (ell e₁ : ℝ) ≤ x ∧ x ≤ ell e₂ ∧
      (ell e₂ : ℝ) - ell e₁ ≤ (|x| + 1) / 2 ^ (n - 5) ∧ ∃ j : ℤ, (j : ℚ) ≤ ell e₁ ∧ ell e₂ ≤ j + 1 := by
  have hn1 : 1 ≤ n := by omega
  have hn5 : 5 ≤ n := by omega
  have h16 := pow16 hn5
  cases s
  · obtain ⟨k, k1, k2, h1, h2⟩ := psi_bracket hn hx
    obtain ⟨j, j1, j2⟩ := psi_unit (by omega) k2
    have st := psi_step_le (V := 2 ^ (n - 5)) (k := k) (by positivity) (by omega) h1 (by push_cast at h2 ⊢; exact h2)
    have e1 := ell_mkT hn5 false (k := k) (by omega)
    have e2 := ell_mkT hn5 false k2
    simp only [sg, Bool.false_eq_true, if_false, one_mul] at e1 e2
    refine ⟨mkT n false k, mkT n false (k + 1), regular_mkT hn1 _ k1 (by omega), regular_mkT hn1 _ (by omega) k2,
      mkT_msb hn1 _ (by omega), mkT_msb hn1 _ k2, by rw [e1]; exact h1, by rw [e2]; exact h2, ?_, j, by rw [e1]; exact j1, by rw [e2]; exact j2⟩
    rw [e1, e2]
    push_cast at st ⊢
    exact st
  · obtain ⟨k, k1, k2, h1, h2⟩ := psi_bracket hn (x := -x) (by rw [abs_neg]; exact hx)
    obtain ⟨j, j1, j2⟩ := psi_unit (by omega) k2
    have st := psi_step_le (V := 2 ^ (n - 5)) (k := k) (by positivity) (by omega) h1 (by push_cast at h2 ⊢; exact h2)
    have e1 := ell_mkT hn5 true (k := k) (by omega)
    have e2 := ell_mkT hn5 true k2
    simp only [sg, if_true, neg_mul, one_mul] at e1 e2
    rw [abs_neg] at st
    refine ⟨mkT n true (k + 1), mkT n true k, regular_mkT hn1 _ (by omega) k2, regular_mkT hn1 _ k1 (by omega),
      mkT_msb hn1 _ k2, mkT_msb hn1 _ (by omega), by rw [e2]; push_cast at h2 ⊢; linarith, by rw [e1]; push_cast at h1 ⊢; linarith, ?_,
      -j - 1, by rw [e2]; push_cast at j2 ⊢; linarith, by rw [e1]; push_cast at j1 ⊢; linarith⟩
    rw [e1, e2]
    push_cast at st ⊢
    linarith

/-- The magnitude at a position, by the family. -/
noncomputable def gk : Kind → ℚ → ℝ
  | .log, q => Real.exp (q / 2)
  | .lin, q => (lam q : ℝ)

theorem gk_strictMono (k : Kind) : StrictMono (gk k) := by
  intro a b h
  cases k
  · show Real.exp _ < Real.exp _
    rw [Real.exp_lt_exp]
    have : (a : ℝ) < b := by exact_mod_cast h
    linarith
  · show (lam a : ℝ) < lam b
    exact_mod_cast lam_strictMono h

theorem gk_pos (k : Kind) (q : ℚ) : 0 < gk k q := by
  cases k
  · exact Real.exp_pos _
  · show (0 : ℝ) < lam q
    exact_mod_cast lam_pos q

theorem value_gk {n : ℕ} (hn : 5 ≤ n) (k : Kind) {t : BitVec n} (h : Regular t) : value k t = some ((sg t.msb : ℝ) * gk k (ell t)) := by
  cases k
  · show logVal t = _
    rw [logVal_regular (by omega) h, logG_exp]
    rfl
  · show (linVal t).map _ = _
    rw [linVal_sg hn h]
    show some _ = some _
    congr 1
    push_cast
    rfl

/-- A faithful rounding is not outside of two takums of the same sign around the number. -/
theorem faithful_between {w : W} {k : Kind} {y : ℝ} {u e₁ e₂ : T w} (hf : Faithful k y u) (hy : y ≠ 0)
    (r1 : Regular e₁) (r2 : Regular e₂) (s1 : e₁.msb = decide (y < 0)) (s2 : e₂.msb = decide (y < 0))
    (h1 : gk k (ell e₁) ≤ |y|) (h2 : |y| ≤ gk k (ell e₂)) :
    Regular u ∧ u.msb = decide (y < 0) ∧ ell e₁ ≤ ell u ∧ ell u ≤ ell e₂ := by
  have h8 := w.n_pos
  have hn5 : 5 ≤ w.n := by omega
  have ru : Regular u := ⟨fun h => hy (hf.2.1.mp h), hf.1⟩
  have v1 := value_gk hn5 k r1
  have v2 := value_gk hn5 k r2
  have vu := value_gk hn5 k ru
  have p1 := gk_pos k (ell e₁)
  have p2 := gk_pos k (ell e₂)
  have pu := gk_pos k (ell u)
  rw [s1] at v1
  rw [s2] at v2
  rcases lt_or_gt_of_ne hy with hneg | hpos
  · rw [abs_of_neg hneg] at h1 h2
    simp only [hneg, decide_true, sg, if_true] at v1 v2 ⊢
    push_cast at v1 v2
    have o1 := (hf.2.2 e₁ _ v1).2 (by linarith)
    have o2 := (hf.2.2 e₂ _ v2).1 (by linarith)
    rw [value_order k vu v1] at o1
    rw [value_order k v2 vu] at o2
    have hm : u.msb = true := by
      by_contra hc
      rw [Bool.not_eq_true] at hc
      simp only [hc, sg, Bool.false_eq_true, if_false] at o1
      push_cast at o1; linarith
    rw [hm] at o1 o2
    simp only [sg, if_true] at o1 o2
    push_cast at o1 o2
    exact ⟨ru, hm, (gk_strictMono k).le_iff_le.mp (by linarith), (gk_strictMono k).le_iff_le.mp (by linarith)⟩
  · have hn' : ¬ y < 0 := by linarith
    rw [abs_of_pos hpos] at h1 h2
    simp only [hn', decide_false, sg, Bool.false_eq_true, if_false] at v1 v2 ⊢
    push_cast at v1 v2
    have o1 := (hf.2.2 e₁ _ v1).1 (by linarith)
    have o2 := (hf.2.2 e₂ _ v2).2 (by linarith)
    rw [value_order k v1 vu] at o1
    rw [value_order k vu v2] at o2
    have hm : u.msb = false := by
      by_contra hc
      rw [Bool.not_eq_false] at hc
      simp only [hc, sg, if_true] at o1
      push_cast at o1; linarith
    rw [hm] at o1 o2
    simp only [sg, Bool.false_eq_true, if_false] at o1 o2
    push_cast at o1 o2
    exact ⟨ru, hm, (gk_strictMono k).le_iff_le.mp (by linarith), (gk_strictMono k).le_iff_le.mp (by linarith)⟩

theorem W.n_ge16 {w : W} (h : w ≠ .w8) : 16 ≤ w.n := by cases w <;> first | exact absurd rfl h | decide

/-- A faithful logarithmic takum, on the logarithmic scale. -/
theorem faithful_log_close {w : W} (hw : w ≠ .w8) {y : ℝ} {u : T w} (hf : Faithful .log y u) (hy : y ≠ 0)
    (hb : |2 * Real.log (|y|)| ≤ 254.5) :
    Regular u ∧ u.msb = decide (y < 0) ∧ |(ell u : ℝ) - 2 * Real.log (|y|)| ≤ (|2 * Real.log (|y|)| + 1) / 2 ^ (w.n - 5) := by
  obtain ⟨e₁, e₂, r1, r2, s1, s2, b1, b2, g, -⟩ := ell_bracket (n := w.n) (W.n_ge16 hw) (decide (y < 0)) hb
  have ya : 0 < |y| := abs_pos.mpr hy
  obtain ⟨ru, su, l1, l2⟩ := faithful_between hf hy r1 r2 s1 s2
    (by show Real.exp _ ≤ _; rw [← Real.le_log_iff_exp_le ya]; linarith)
    (by show _ ≤ Real.exp _; rw [← Real.log_le_iff_le_exp ya]; linarith)
  refine ⟨ru, su, ?_⟩
  have l1' : (ell e₁ : ℝ) ≤ ell u := by exact_mod_cast l1
  have l2' : (ell u : ℝ) ≤ ell e₂ := by exact_mod_cast l2
  rw [abs_le]; constructor <;> linarith

/-- A faithful linear takum: its relative error. -/
theorem faithful_lin_close {w : W} (hw : w ≠ .w8) {z : ℚ} {u : T w} (hf : Faithful .lin (z : ℝ) u) (hz : z ≠ 0)
    (hb : |((lamInv (|z|) : ℚ) : ℝ)| ≤ 254.5) :
    Regular u ∧ u.msb = decide (z < 0) ∧
      |(lam (ell u) : ℝ) - (|(z : ℝ)|)| ≤ (|((lamInv (|z|) : ℚ) : ℝ)| + 1) / 2 ^ (w.n - 5) * |(z : ℝ)| := by
  have za : 0 < |z| := abs_pos.mpr hz
  have hzr : (z : ℝ) ≠ 0 := by exact_mod_cast hz
  have hd : decide ((z : ℝ) < 0) = decide (z < 0) := by
    apply decide_eq_decide.mpr; exact_mod_cast Iff.rfl
  obtain ⟨e₁, e₂, r1, r2, s1, s2, b1, b2, g, j, j1, j2⟩ := ell_bracket (n := w.n) (W.n_ge16 hw) (decide ((z : ℝ) < 0)) hb
  have b1' : ell e₁ ≤ lamInv |z| := by exact_mod_cast b1
  have b2' : lamInv |z| ≤ ell e₂ := by exact_mod_cast b2
  have m1 := lam_strictMono.monotone b1'
  have m2 := lam_strictMono.monotone b2'
  rw [lam_lamInv za] at m1 m2
  obtain ⟨ru, su, l1, l2⟩ := faithful_between hf hzr r1 r2 s1 s2
    (by show (lam (ell e₁) : ℝ) ≤ _; exact_mod_cast m1) (by show _ ≤ (lam (ell e₂) : ℝ); exact_mod_cast m2)
  refine ⟨ru, su.trans hd, ?_⟩
  have q1 : lam (ell u) = (1 + (ell u - j)) * (2 : ℚ) ^ j := lam_affine (by linarith) (by linarith)
  have q2 : |z| = (1 + (lamInv |z| - j)) * (2 : ℚ) ^ j := by
    rw [← lam_affine (j := j) (by linarith) (by linarith), lam_lamInv za]
  have pj : (0 : ℚ) < (2 : ℚ) ^ j := by positivity
  have hzj : (2 : ℚ) ^ j ≤ |z| := by rw [q2]; nlinarith
  have hd : |lam (ell u) - (|z|)| ≤ (ell e₂ - ell e₁) * |z| := by
    have : lam (ell u) - |z| = (ell u - lamInv |z|) * (2 : ℚ) ^ j := by rw [q1]; nth_rewrite 1 [q2]; ring
    rw [this, abs_mul, abs_of_pos pj]
    apply mul_le_mul _ hzj pj.le (by linarith)
    rw [abs_le]; constructor <;> linarith
  have hd' := (Rat.cast_le (K := ℝ)).mpr hd
  push_cast at hd'
  exact hd'.trans (mul_le_mul_of_nonneg_right g (abs_nonneg _))

end Takum
