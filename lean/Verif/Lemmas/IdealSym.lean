import Verif.Lemmas.Symmetry

/-! # The ideal math library is symmetric -/

namespace Takum

theorem rnd_neg {F : Fmt} {r : ℝ} (h : r ≠ 0) : rnd F (-r) = (rnd F r).neg := by
  unfold rnd
  rw [F.rq_neg, abs_neg]
  have hs : decide (-r < 0) = !decide (r < 0) := by
    rcases lt_or_gt_of_ne h with h0 | h0
    · simp [h0, h0.le]
    · simp [h0, h0.le]
  rw [hs]
  split_ifs
  · rfl
  · exact Fl.mk_neg

theorem idealOdd_odd {f : ℝ → ℝ} {hi lo : Fmt → Fl} (hf : ∀ q : ℚ, f (-q) = -f q) (h0 : ∀ q : ℚ, q ≠ 0 → f q ≠ 0)
    (hl : ∀ F, F = b64 ∨ F = x80 → lo F = (hi F).neg ∧ (hi F).In F) : OddFn (idealOdd f hi lo) := by
  refine ⟨?_, fun F s => rfl, ?_⟩
  · intro F hF x hx
    obtain ⟨e, -⟩ := hl F hF
    cases x with
    | nan => rfl
    | inf s =>
      cases s
      · show (if (!false) = true then lo F else hi F) = (if false = true then lo F else hi F).neg; simp [e]
      · show (if (!true) = true then lo F else hi F) = (if true = true then lo F else hi F).neg; simp [e, Fl.neg_neg']
    | zero s => rfl
    | num q =>
      show rnd F (f ((-q : ℚ) : ℝ)) = (rnd F (f q)).neg
      rw [Rat.cast_neg, hf, rnd_neg (h0 q hx.1)]
  · intro F hF x hx
    obtain ⟨e, i⟩ := hl F hF
    cases x with
    | nan => trivial
    | inf s =>
      cases s
      · exact i
      · show (lo F).In F; rw [e]; exact i.neg
    | zero s => trivial
    | num q => exact rnd_in (std3 hF) _

theorem idealFn_even {f : ℝ → ℝ} {hi lo : Fmt → Fl} (hf : ∀ q : ℚ, f (-q) = f q)
    (hl : ∀ F, F = b64 ∨ F = x80 → lo F = hi F ∧ (hi F).In F) : EvenFn (idealFn f hi lo) := by
  refine ⟨?_, ?_⟩
  · intro F hF x hx
    obtain ⟨e, -⟩ := hl F hF
    cases x with
    | nan => rfl
    | inf s =>
      cases s
      · show (if (!false) = true then lo F else hi F) = (if false = true then lo F else hi F); simp [e]
      · show (if (!true) = true then lo F else hi F) = (if true = true then lo F else hi F); simp [e]
    | zero s => rfl
    | num q =>
      show rnd F (f ((-q : ℚ) : ℝ)) = rnd F (f q)
      rw [Rat.cast_neg, hf]
  · intro F hF x hx
    obtain ⟨e, i⟩ := hl F hF
    cases x with
    | nan => trivial
    | inf s =>
      cases s
      · exact i
      · show (lo F).In F; rw [e]; exact i
    | zero s => exact rnd_in (std3 hF) _
    | num q => exact rnd_in (std3 hF) _

theorem sin_rat_ne {q : ℚ} (h : q ≠ 0) : Real.sin q ≠ 0 := by
  intro e
  obtain ⟨n, hn⟩ := Real.sin_eq_zero_iff.mp e
  have hn0 : n ≠ 0 := by
    rintro rfl
    simp at hn
    exact h (by exact_mod_cast hn.symm)
  apply irrational_pi
  refine ⟨q / n, ?_⟩
  push_cast
  have : (n : ℝ) ≠ 0 := by exact_mod_cast hn0
  rw [← hn]; field_simp

theorem cos_rat_ne (q : ℚ) : Real.cos q ≠ 0 := by
  intro e
  obtain ⟨n, hn⟩ := Real.cos_eq_zero_iff.mp e
  apply irrational_pi
  refine ⟨2 * q / (2 * n + 1), ?_⟩
  have h0 : ((2 * n + 1 : ℤ) : ℝ) ≠ 0 := by
    have : (2 * n + 1 : ℤ) ≠ 0 := by omega
    exact_mod_cast this
  push_cast at h0 ⊢
  rw [hn]; field_simp

theorem num_in_one {F : Fmt} (hF : F = b64 ∨ F = x80) : (Fl.num 1).In F := by
  have h : (Fl.num 1).In b64 := ⟨by norm_num, ⟨1, 0, by norm_num, by decide, by decide⟩, by decide +kernel⟩
  rcases hF with rfl | rfl
  · exact h
  · exact In_b64_x80 h

theorem ideal_symmetric : ideal.Symmetric where
  sin := idealOdd_odd (fun q => Real.sin_neg _) (fun q h => sin_rat_ne h) (fun F hF => ⟨rfl, trivial⟩)
  tan := idealOdd_odd (fun q => Real.tan_neg _)
    (fun q h => by rw [Real.tan_eq_sin_div_cos]; exact div_ne_zero (sin_rat_ne h) (cos_rat_ne q)) (fun F hF => ⟨rfl, trivial⟩)
  asin := by
    refine ⟨?_, fun F s => rfl, ?_⟩
    · intro F hF x hx
      cases x with
      | num q =>
        show (if |(-q)| ≤ 1 then rnd F (Real.arcsin (-q : ℚ)) else .nan) = (if |q| ≤ 1 then rnd F (Real.arcsin q) else .nan).neg
        rw [abs_neg]
        split_ifs with h
        · rw [Rat.cast_neg, Real.arcsin_neg, rnd_neg]
          rw [Ne, Real.arcsin_eq_zero_iff]; exact_mod_cast hx.1
        · rfl
      | _ => rfl
    · intro F hF x hx
      cases x with
      | num q =>
        show (if |q| ≤ 1 then rnd F (Real.arcsin q) else .nan).In F
        split_ifs with h
        · exact rnd_in (std3 hF) _
        · trivial
      | _ => trivial
  atan := idealOdd_odd (fun q => Real.arctan_neg _) (fun q h => by rw [Ne, Real.arctan_eq_zero_iff]; exact_mod_cast h)
    (fun F hF => ⟨rnd_neg (by have := Real.pi_pos; positivity), rnd_in (std3 hF) _⟩)
  sinh := idealOdd_odd (fun q => Real.sinh_neg _) (fun q h => by rw [Ne, Real.sinh_eq_zero]; exact_mod_cast h) (fun F hF => ⟨rfl, trivial⟩)
  tanh := idealOdd_odd (fun q => Real.tanh_neg _)
    (fun q h => by
      rw [Real.tanh_eq_sinh_div_cosh]
      refine div_ne_zero ?_ (Real.cosh_pos _).ne'
      rw [Ne, Real.sinh_eq_zero]; exact_mod_cast h)
    (fun F hF => ⟨rfl, num_in_one hF⟩)
  asinh := idealOdd_odd (fun q => Real.arsinh_neg _) (fun q h => by rw [Ne, Real.arsinh_eq_zero_iff]; exact_mod_cast h)
    (fun F hF => ⟨rfl, trivial⟩)
  atanh := by
    refine ⟨?_, fun F s => rfl, ?_⟩
    · intro F hF x hx
      cases x with
      | num q =>
        show (if 1 < |(-q)| then Fl.nan else if |(-q)| = 1 then .inf (decide (-q < 0)) else rnd F (1 / 2 * Real.log ((1 + (-q : ℚ)) / (1 - (-q : ℚ))))) =
          (if 1 < |q| then Fl.nan else if |q| = 1 then .inf (decide (q < 0)) else rnd F (1 / 2 * Real.log ((1 + q) / (1 - q)))).neg
        rw [abs_neg]
        split_ifs with h1 h2
        · rfl
        · have hs : decide (-q < 0) = !decide (q < 0) := by
            rcases lt_or_gt_of_ne hx.1 with h0 | h0
            · simp [h0, h0.le]
            · simp [h0, h0.le]
          rw [hs]; rfl
        · have hq : |q| < 1 := lt_of_le_of_ne (not_lt.mp h1) h2
          have hq' : |(q : ℝ)| < 1 := by exact_mod_cast hq
          obtain ⟨a1, a2⟩ := abs_lt.mp hq'
          have e : (1 + ((-q : ℚ) : ℝ)) / (1 - ((-q : ℚ) : ℝ)) = ((1 + (q : ℝ)) / (1 - (q : ℝ)))⁻¹ := by
            rw [inv_div, Rat.cast_neg, sub_neg_eq_add, ← sub_eq_add_neg]
          rw [e, Real.log_inv, mul_neg, rnd_neg]
          refine mul_ne_zero (by norm_num) (Real.log_ne_zero_of_pos_of_ne_one (div_pos (by linarith) (by linarith)) ?_)
          rw [Ne, div_eq_one_iff_eq (by linarith)]
          intro h3
          have : (q : ℝ) = 0 := by linarith
          exact hx.1 (by exact_mod_cast this)
      | _ => rfl
    · intro F hF x hx
      cases x with
      | num q =>
        show (if 1 < |q| then Fl.nan else if |q| = 1 then .inf (decide (q < 0)) else rnd F (1 / 2 * Real.log ((1 + q) / (1 - q)))).In F
        split_ifs
        · trivial
        · trivial
        · exact rnd_in (std3 hF) _
      | _ => trivial
  cos := idealFn_even (fun q => Real.cos_neg _) (fun F hF => ⟨rfl, trivial⟩)
  cosh := idealFn_even (fun q => Real.cosh_neg _) (fun F hF => ⟨rfl, trivial⟩)
  atan2_neg := by
    intro F hF y x hy hx
    have hp := Real.pi_pos
    have hs : ∀ {q : ℚ}, q ≠ 0 → ((if -q < 0 then -1 else 1 : ℝ)) = -(if q < 0 then -1 else 1) := by
      intro q hq
      rcases lt_or_gt_of_ne hq with h0 | h0
      · rw [if_neg (by linarith), if_pos h0]; norm_num
      · rw [if_pos (by linarith), if_neg (by linarith)]
    have hb : ∀ s : Bool, ((if (!s) = true then -1 else 1 : ℝ)) = -(if s = true then -1 else 1) := by
      intro s; cases s <;> simp
    have n1 : ∀ {P : Prop} [Decidable P] {z : ℝ}, 0 < z → (if P then -1 else 1 : ℝ) * z ≠ 0 := by
      intro P _ z hz; split_ifs <;> simp [hz.ne']
    cases y with
    | nan => rfl
    | zero s =>
      cases x with
      | nan => rfl
      | num p =>
        show (if (Fl.num p).sgn = true then rnd F (_ * Real.pi) else Fl.zero _) = (if (Fl.num p).sgn = true then rnd F (_ * Real.pi) else Fl.zero _).neg
        by_cases h : (Fl.num p).sgn = true
        · rw [if_pos h, if_pos h, hb, neg_mul, rnd_neg (n1 hp)]
        · rw [if_neg h, if_neg h]; rfl
      | zero p =>
        show (if (Fl.zero p).sgn = true then rnd F (_ * Real.pi) else Fl.zero _) = (if (Fl.zero p).sgn = true then rnd F (_ * Real.pi) else Fl.zero _).neg
        by_cases h : (Fl.zero p).sgn = true
        · rw [if_pos h, if_pos h, hb, neg_mul, rnd_neg (n1 hp)]
        · rw [if_neg h, if_neg h]; rfl
      | inf p =>
        show (if (Fl.inf p).sgn = true then rnd F (_ * Real.pi) else Fl.zero _) = (if (Fl.inf p).sgn = true then rnd F (_ * Real.pi) else Fl.zero _).neg
        by_cases h : (Fl.inf p).sgn = true
        · rw [if_pos h, if_pos h, hb, neg_mul, rnd_neg (n1 hp)]
        · rw [if_neg h, if_neg h]; rfl
    | inf s =>
      cases x with
      | nan => rfl
      | inf t =>
        show rnd F (_ * _) = (rnd F (_ * _)).neg
        rw [hb, neg_mul, rnd_neg (n1 (by cases t <;> simp <;> positivity))]
      | _ =>
        show rnd F (_ * _) = (rnd F (_ * _)).neg
        rw [hb, neg_mul, rnd_neg (n1 (by positivity))]
    | num q =>
      have hq := hy.1
      cases x with
      | nan => rfl
      | inf t =>
        show (if t = true then rnd F (_ * Real.pi) else Fl.zero (decide (-q < 0))) = (if t = true then rnd F (_ * Real.pi) else Fl.zero _).neg
        by_cases h : t = true
        · rw [if_pos h, if_pos h, hs hq, neg_mul, rnd_neg (n1 hp)]
        · rw [if_neg h, if_neg h]
          have : decide (-q < 0) = !decide (q < 0) := by
            rcases lt_or_gt_of_ne hq with h0 | h0
            · simp [h0, h0.le]
            · simp [h0, h0.le]
          rw [this]; rfl
      | zero t =>
        show rnd F (_ * _) = (rnd F (_ * _)).neg
        rw [hs hq, neg_mul, rnd_neg (n1 (by positivity))]
      | num p =>
        show rnd F (Complex.arg ⟨p, (-q : ℚ)⟩) = (rnd F (Complex.arg ⟨p, q⟩)).neg
        have hq' : (q : ℝ) ≠ 0 := by exact_mod_cast hq
        have e : (⟨p, ((-q : ℚ) : ℝ)⟩ : ℂ) = (starRingEnd ℂ) ⟨p, q⟩ := by
          apply Complex.ext <;> simp
        rw [e, Complex.arg_conj, if_neg, rnd_neg]
        · intro h
          rw [Complex.arg_eq_zero_iff] at h
          exact hq' h.2
        · intro h
          rw [Complex.arg_eq_pi_iff] at h
          exact hq' h.2
  atan2_type := by
    intro F hF y x hy hx
    have r : ∀ z, (rnd F z).In F := fun z => rnd_in (std3 hF) z
    show (idealAtan2 F y x).In F
    unfold idealAtan2
    cases y <;> cases x <;> simp only <;> first | exact r _ | (split_ifs <;> first | exact r _ | exact True.intro) | exact True.intro
  hypot_neg := by
    intro F hF x y hx hy
    show idealHypot F x.neg y = idealHypot F x y
    cases x with
    | num q =>
      have hn : (Fl.num q).neg.toQ = -q := rfl
      have hq : (Fl.num q).toQ = q := rfl
      have key : ∀ y : Fl, rnd F (Real.sqrt (((Fl.num q).neg.toQ : ℝ) ^ 2 + (y.toQ : ℝ) ^ 2)) =
          rnd F (Real.sqrt (((Fl.num q).toQ : ℝ) ^ 2 + (y.toQ : ℝ) ^ 2)) := by
        intro y; rw [hn, hq, Rat.cast_neg, neg_sq]
      cases y with
      | num r => exact key _
      | zero r => exact key _
      | nan => rfl
      | inf r => rfl
    | zero s =>
      cases y with
      | num r =>
        show rnd F (Real.sqrt (_ ^ 2 + _)) = rnd F (Real.sqrt (_ ^ 2 + _))
        simp [Fl.toQ]
      | _ => rfl
    | nan => rfl
    | inf s => cases y <;> rfl
  hypot_comm := by
    intro F hF x y hx hy
    show idealHypot F y x = idealHypot F x y
    have key : rnd F (Real.sqrt ((y.toQ : ℝ) ^ 2 + (x.toQ : ℝ) ^ 2)) = rnd F (Real.sqrt ((x.toQ : ℝ) ^ 2 + (y.toQ : ℝ) ^ 2)) := by
      rw [add_comm]
    cases x with
    | num q =>
      cases y with
      | num r => exact key
      | zero r => exact key
      | nan => rfl
      | inf r => rfl
    | zero q =>
      cases y with
      | num r => exact key
      | zero r => rfl
      | nan => rfl
      | inf r => rfl
    | nan => cases y <;> rfl
    | inf q => cases y <;> rfl

end Takum
