import Verif.Lemmas.TestPow

/-!
# C91: the test programs of the root and the integer power of logarithmic takums

`Raises E ref`: the exceptions that a conforming `powl` raises.
-/

namespace Takum.Test
open Takum Spec

/-! ### Cases -/

/-- A case is passed if the results differ by at most one unit and, for 64 bits, the expected one is
regular and not the largest takum unless they are equal. -/
theorem passed_int {E : Env} {ref : Fl → ℤ → Fl} {f : Kind → (w : W) → T w → ℤ → C (T w)} (hE : Raises E ref)
    {k : Kind} {w : W} {t u v : T w} {n : ℤ} {a : Fl} (ha : toExt E.L k w t = .ok a)
    (hi : (ref a n).isinf = false ∧ ¬ ((ref a n).isfinite = true ∧ (ref a n).toQ = 0))
    (hf : f k w t n = .ok u) (hr : fromExt E.L k w (ref a n) = .ok v) (hn : |u.toInt - v.toInt| ≤ 1)
    (hv : v ≠ nar w.n) (h64 : w = .w64 → v.toInt = 2 ^ 63 - 1 → u = v) : PassedInt E ref f k w t n := by
  obtain ⟨f1, -⟩ := hE k w t n _ ⟨a, ha, rfl⟩
  have o : (E.flags k w t.toInt n).2 = false := by
    rw [← Bool.not_eq_true, f1]; intro h; simp only [hi.1] at h; exact absurd h.1 (by decide)
  refine ⟨_, ⟨a, ha, rfl⟩, u, v.toInt, hf, ?_, ?_, hn⟩
  · rw [show E.flags k w t.toInt n = ((E.flags k w t.toInt n).1, false) by rw [← o]]
    exact .regular _ _ _ (.inr hi.2) hr
  · rintro rfl
    refine ⟨fun h => h.2 (by rw [h64 rfl h.1]), fun h => hv (BitVec.eq_of_toInt_eq (h.1.trans ?_))⟩
    decide

/-! ### The root -/

/-- The integer as number of the type computed in. -/
theorem exponent_err {w : W} (n : BitVec 64) :
    |w.lF.rq (n.toInt : ℚ) - n.toInt| ≤ |(n.toInt : ℚ)| / 2 ^ 24 ∧
      (|n.toInt| < 2 ^ w.lF.prec → w.lF.rq (n.toInt : ℚ) = n.toInt) := by
  have ex : |n.toInt| < 2 ^ w.lF.prec → w.lF.rq (n.toInt : ℚ) = n.toInt := fun h =>
    w.lF.rq_of_rep (Fmt.Rep.int (by have := w.lF_prec; omega) h)
  refine ⟨?_, ex⟩
  by_cases n0 : n.toInt = 0
  · rw [ex (by rw [n0, abs_zero]; positivity), sub_self, abs_zero]; positivity
  have h1 : (2 : ℝ) ^ (w.lF.emin + w.lF.prec) ≤ |(n.toInt : ℝ)| := by
    have h2 : (1 : ℝ) ≤ |(n.toInt : ℝ)| := by
      have := Int.one_le_abs n0
      exact_mod_cast this
    refine le_trans (zpow_le_one_of_nonpos₀ (by norm_num) ?_) h2
    cases w <;> decide
  have h3 := rq_real_err h1
  rw [← Rat.cast_intCast, Fmt.rq_cast] at h3
  have h4 : |((n.toInt : ℚ) : ℝ)| / 2 ^ w.lF.prec ≤ |((n.toInt : ℚ) : ℝ)| / 2 ^ 24 := by
    gcongr
    · norm_num
    · exact w.lF_prec.1
  have h5 := h3.trans h4
  have h6 : ((|w.lF.rq (n.toInt : ℚ) - n.toInt| : ℚ) : ℝ) ≤ ((|(n.toInt : ℚ)| / 2 ^ 24 : ℚ) : ℝ) := by
    push_cast at h5 ⊢; exact h5
  exact Rat.cast_le.mp h6

/-- The index as number of the type computed in. -/
theorem index_err {w : W} {n : BitVec 64} (hn : n.toInt ≠ 0) :
    (w = .w64 → w.lF.rq (n.toInt : ℚ) = n.toInt) ∧
      ∀ t : T w, |ell t / w.lF.rq (n.toInt : ℚ) - ell t / n.toInt| ≤ 1 / 2 ^ 40 := by
  obtain ⟨-, -, r1, r2⟩ := ofInt_is w n
  constructor
  · rintro rfl
    exact x80.rq_of_rep (int64_in n).1
  intro t
  by_cases hs : |n.toInt| < 2 ^ 24
  · have : w.lF.rq (n.toInt : ℚ) = n.toInt := by
      refine w.lF.rq_of_rep (Fmt.Rep.int ?_ (lt_of_lt_of_le hs ?_))
      · have := w.lF_prec; omega
      · exact pow_le_pow_right₀ (by norm_num) w.lF_prec.1
    rw [this, sub_self, abs_zero]; positivity
  have big : (2 : ℚ) ^ 24 ≤ |(n.toInt : ℚ)| := by
    have := not_lt.mp hs
    exact_mod_cast this
  have rep : w.lF.Rep (2 ^ 24) := by
    have := Fmt.Rep.zpow (F := w.lF) (by have := w.lF_prec; omega) (k := 24) (by have := w.lF_prec; omega)
    exact_mod_cast this
  have hr : (2 : ℚ) ^ 24 ≤ |w.lF.rq (n.toInt : ℚ)| := by
    rw [← Fmt.abs_rq]; exact w.lF.le_rq (by have := w.lF_prec; omega) rep big
  have he := (exponent_err (w := w) n).1
  have hb := abs_ell_lt t
  generalize w.lF.rq (n.toInt : ℚ) = r at *
  have n0 : (n.toInt : ℚ) ≠ 0 := by exact_mod_cast hn
  generalize (n.toInt : ℚ) = N at *
  have r0 : r ≠ 0 := by rintro rfl; norm_num at hr
  have e : ell t / r - ell t / N = ell t * ((N - r) / N) / r := by field_simp
  rw [e, abs_div, abs_mul, abs_div, abs_sub_comm, div_le_iff₀ (abs_pos.mpr r0)]
  have h1 : |r - N| / |N| ≤ 1 / 2 ^ 24 := by
    rw [div_le_iff₀ (abs_pos.mpr n0)]; linarith
  have h2 : |ell t| * (|r - N| / |N|) ≤ 256 * (1 / 2 ^ 24) := mul_le_mul hb.le h1 (by positivity) (by norm_num)
  linarith

/-- The error of the logarithm of a root. -/
theorem root_log {v y : ℝ} {N : ℤ} {e : ℚ} (n1 : 1 ≤ |(N : ℝ)|) (hy : |y - 1 / (N : ℝ)| ≤ 1 / 2 ^ 64 * |1 / (N : ℝ)|)
    (hv : |Real.log v - (e : ℝ) * Real.log (sqe x80)| ≤ ((4.01 / 2 ^ 64 : ℚ) : ℝ)) :
    |y * Real.log v - ((e / N : ℚ) : ℝ) * Real.log (sqe x80)| ≤ (((4.02 + 0.5002 * |e / N|) / 2 ^ 64 : ℚ) : ℝ) := by
  obtain ⟨s1, s2⟩ := sqe_log_bounds
  have e1 : y * Real.log v - ((e / N : ℚ) : ℝ) * Real.log (sqe x80) =
      (y - 1 / N) * Real.log v + 1 / N * (Real.log v - (e : ℝ) * Real.log (sqe x80)) := by
    push_cast; ring
  have e2 : (((4.02 + 0.5002 * |e / N|) / 2 ^ 64 : ℚ) : ℝ) = (4.02 + 0.5002 * (|(e : ℝ)| * |1 / (N : ℝ)|)) / 2 ^ 64 := by
    push_cast; rw [abs_div, abs_div, abs_one]; ring
  have i1 : |1 / (N : ℝ)| ≤ 1 := by
    rw [abs_div, abs_one]; exact div_le_one_of_le₀ n1 (by positivity)
  have i0 := abs_nonneg (1 / (N : ℝ))
  have l1 : |Real.log v| ≤ |(e : ℝ)| * 0.5001 + 4.01 / 2 ^ 64 := by
    have h := abs_add_le (Real.log v - (e : ℝ) * Real.log (sqe x80)) ((e : ℝ) * Real.log (sqe x80))
    rw [sub_add_cancel, abs_mul, abs_of_nonneg (by linarith : 0 ≤ Real.log (sqe x80))] at h
    have h2 : |(e : ℝ)| * Real.log (sqe x80) ≤ |(e : ℝ)| * 0.5001 := by gcongr
    push_cast at hv
    linarith
  rw [e1, e2]
  refine (abs_add_le _ _).trans ?_
  rw [abs_mul, abs_mul]
  have a1 : |y - 1 / (N : ℝ)| * |Real.log v| ≤ 1 / 2 ^ 64 * |1 / (N : ℝ)| * (|(e : ℝ)| * 0.5001 + 4.01 / 2 ^ 64) :=
    mul_le_mul hy l1 (abs_nonneg _) (by positivity)
  have a2 : |1 / (N : ℝ)| * |Real.log v - (e : ℝ) * Real.log (sqe x80)| ≤ 1 * (4.01 / 2 ^ 64) := by
    push_cast at hv
    exact mul_le_mul i1 hv (abs_nonneg _) (by norm_num)
  have a3 : 1 / 2 ^ 64 * |1 / (N : ℝ)| * (|(e : ℝ)| * 0.5001 + 4.01 / 2 ^ 64) ≤
      (0.5001 * (|(e : ℝ)| * |1 / (N : ℝ)|) + 0.001) / 2 ^ 64 := by
    have : |1 / (N : ℝ)| * (4.01 / 2 ^ 64) ≤ 1 * 0.001 := mul_le_mul i1 (by norm_num) (by norm_num) (by norm_num)
    calc _ = (0.5001 * (|(e : ℝ)| * |1 / (N : ℝ)|) + |1 / (N : ℝ)| * (4.01 / 2 ^ 64)) / 2 ^ 64 := by ring
      _ ≤ _ := by gcongr; linarith
  have a4 : 0 ≤ |(e : ℝ)| * |1 / (N : ℝ)| := by positivity
  have a5 : (0.5001 * (|(e : ℝ)| * |1 / (N : ℝ)|) + 0.001) / 2 ^ 64 + 1 * (4.01 / 2 ^ 64) ≤
      (4.02 + 0.5002 * (|(e : ℝ)| * |1 / (N : ℝ)|)) / 2 ^ 64 := by
    rw [one_mul, ← add_div, div_le_div_iff_of_pos_right (by positivity)]; linarith
  linarith

/-- The reference for a number with a root. -/
theorem root_reference {L : Libm} (hA : L.Approximates) {f : Fl} {s : Bool} {v : ℚ} (hf : f.Is (sg s * v))
    (iv : x80.In (sg s * v)) (pv : 0 < v) {n : BitVec 64} {y : ℚ} (y0 : y ≠ 0) (iy : x80.In y)
    (h1 : |n.toInt| = 1 → y = n.toInt) (hs : s = true → |n.toInt| = 1) :
    ∃ Y : ℝ, Approx x80 Y (L.pow x80 f (.num y)) ∧ Y ≠ 0 ∧ (Y < 0 ↔ s = true) ∧
      Real.log (|Y|) = y * Real.log v := by
  have rv : (0 : ℝ) < v := by exact_mod_cast pv
  cases s with
  | false =>
    rw [show sg false * v = v by simp [sg]] at hf iv
    have p : 0 < (v : ℝ) ^ (y : ℝ) := Real.rpow_pos_of_pos rv _
    refine ⟨_, hA.pow x80 (.inr rfl) _ _ _ _ hf iv pv (Fl.Is.num y0) iy, p.ne', ?_, ?_⟩
    · simp [p.le]
    · rw [abs_of_pos p, Real.log_rpow rv]
  | true =>
    have h1 := h1 (hs rfl)
    have hs := hs rfl
    have hne : sg true * v ≠ 0 := arg_ne pv
    have ap := hA.pow_int x80 (.inr rfl) f (.num y) _ n.toInt hf iv hne (by rw [← h1]; exact Fl.Is.num y0) (int64_in n)
    have eY : (((sg true * v : ℚ) : ℝ)) ^ n.toInt = -(v : ℝ) ^ n.toInt := by
      have : Odd n.toInt := by
        rcases (abs_eq (by norm_num : (0 : ℤ) ≤ 1)).mp hs with h | h <;> rw [h] <;> decide
      simp [sg, this.neg_zpow]
    rw [eY] at ap
    have p : 0 < (v : ℝ) ^ n.toInt := zpow_pos rv _
    refine ⟨_, ap, (neg_neg_of_pos p).ne, ?_, ?_⟩
    · simp [p]
    · rw [abs_neg, abs_of_pos p, Real.log_zpow, h1]; push_cast; rfl

/-- C91. Every case of the test of the root of logarithmic takums is passed, for all widths, unless the
number is negative and the index is odd and not 1 or -1. -/
theorem log_root_case {E : Env} (hL : E.L.Conforming) (hA : E.L.Approximates) (hE : Raises E (rootReference E.L))
    (w : W) (t : T w) {n : ℤ} (hn : IsInt64 n) (ht : t.toInt < 0 → n % 2 = 1 → |n| = 1) :
    PassedInt E (rootReference E.L) (fun k w t n => match k with
      | .log => root w t (BitVec.ofInt 64 n)
      | .lin => linRoot E.L w t (BitVec.ofInt 64 n)) .log w t n := by
  have tn := toInt_int64 hn
  have hz : BitVec.ofInt 64 n = 0#64 ↔ n = 0 := ⟨fun h => by rw [← tn, h]; rfl, fun h => by rw [h]; rfl⟩
  obtain ⟨s1, s2⟩ := root_special w t (BitVec.ofInt 64 n)
  rw [tn, hz] at s1
  rw [tn] at s2
  by_cases n0 : n = 0
  · have e : ∀ a, rootReference E.L a n = .nan := fun a => if_pos n0
    obtain ⟨a, ha⟩ := toExt_ok E.L .log w t
    refine int_regular hE ha ?_ (by simp [e, Fl.isinf]) (by simp [e, Fl.isfinite])
    rw [e, bad_from E.L .log w rfl]; exact s1.mpr (.inr (.inl n0))
  obtain ⟨y, ey, y0, y1, iy, yn, ya, yi⟩ := root_exponent (n := BitVec.ofInt 64 n) (by rw [tn]; exact n0)
  obtain ⟨y2, y3⟩ := root_exponent_err (by rw [tn]; exact n0) ey
  have eref : ∀ a, rootReference E.L a n = E.L.pow x80 a (.num y) := by
    intro a; unfold rootReference; rw [tn] at ey; rw [if_neg n0, ey]
  rcases takum_cases t with t0 | h | rt
  · subst t0
    have ha := toExt_zero hL.powers .log w
    refine int_regular hE ha ?_ (fun _ => rfl) (fun _ => rfl)
    show root w _ _ = _
    rw [tn] at yn
    rcases lt_or_gt_of_ne n0 with h | h
    · rw [s1.mpr (.inr (.inr (.inr ⟨rfl, h⟩))), eref, bad_from E.L .log w]
      have := hL.specials.zero_neg x80 false _ (yn.mpr h)
      cases hr : E.L.pow x80 (.zero false) (.num y) <;> rw [hr] at this <;> first | rfl | exact absurd this (by simp [Fl.isinf])
    · have yp : 0 < y := lt_of_le_of_ne (not_lt.mp (by rw [yn]; omega)) (Ne.symm y0)
      obtain ⟨s, e⟩ := hL.powSigns.zero_pos x80 false _ yp
      rw [s2.mpr ⟨rfl, h⟩, eref, e, fromExt_zero]
  · subst h
    have ha := toExt_nar hL.powers .log w
    have e : rootReference E.L .nan n = .nan := by rw [eref]; exact hL.nans.pow_left _ _ (by simp)
    refine int_regular hE ha ?_ (by simp [e, Fl.isinf]) (by simp [e, Fl.isfinite])
    rw [e, bad_from E.L .log w rfl]
    exact s1.mpr (.inl rfl)
  obtain ⟨f, v, e, i, iv, pv, hv, -, -⟩ := arg_log hL.powers hL.accurate rt
  by_cases hev : t.toInt < 0 ∧ n % 2 = 0
  · have hneg : sg t.msb * v < 0 := by
      rw [(isNeg_iff t).mp hev.1]; simp [sg]; exact pv
    have h1 : |n| ≠ 1 := by
      intro h; rcases (abs_eq (by norm_num : (0 : ℤ) ≤ 1)).mp h with h | h <;> omega
    rw [tn] at yi
    have er : rootReference E.L f n = .nan := by
      rw [eref, i.eq_num hneg.ne]; exact hL.powSigns.not_int x80 _ y hneg (yi h1)
    refine int_regular hE e ?_ (by simp [er, Fl.isinf]) (by simp [er, Fl.isfinite])
    rw [er, bad_from E.L .log w rfl]
    exact s1.mpr (.inr (.inr (.inl hev)))
  have hod : t.msb = true → n % 2 = 1 := fun h => by
    have := (isNeg_iff t).mpr h
    omega
  have habs : t.msb = true → |(BitVec.ofInt 64 n).toInt| = 1 := fun h => by
    rw [tn]; exact ht ((isNeg_iff t).mpr h) (hod h)
  obtain ⟨Y, ap, Y0, Ys, Yl⟩ := root_reference hA i iv pv y0 iy y3 habs
  rw [← eref] at ap
  rw [tn] at y2 y3
  have n1 : 1 ≤ |(n : ℝ)| := by
    have := Int.one_le_abs n0
    exact_mod_cast this
  have n1q : 1 ≤ |(n : ℚ)| := by
    have := Int.one_le_abs n0
    exact_mod_cast this
  have hlog := root_log n1 y2 hv
  rw [← Yl] at hlog
  have hb := abs_ell_lt t
  have hlb : |ell t / n| ≤ 256 := by
    rw [abs_div]; exact div_le_of_le_mul₀ (by positivity) (by norm_num) (by nlinarith)
  obtain ⟨hfin, p, z, ez, cz, hp⟩ := approx_conv hL.accurate w ap Y0 hlog (by linarith) (by norm_num; linarith)
  have hs : decide (Y < 0) = t.msb := by
    rw [Bool.eq_iff_iff, decide_eq_true_iff]; exact Ys
  rw [hs] at cz
  obtain ⟨l, hl, el⟩ := root_regular rt (n := BitVec.ofInt 64 n) (by rw [ne_eq, hz]; exact n0) (by rw [tn]; exact hod)
  obtain ⟨ie, ie2⟩ := index_err (w := w) (n := BitVec.ofInt 64 n) (by rw [tn]; exact n0)
  rw [tn] at hl ie ie2
  have h0 := abs_nonneg (ell t / n)
  have hpp : |p - ell t / n| ≤ (16.05 + 6.41 * |ell t / n|) / 2 ^ 64 := by
    norm_num at hp ⊢
    linarith
  by_cases hw : w = .w64
  · subst hw
    rw [ie rfl] at hl
    obtain ⟨u, eu, nu, au⟩ := enc_next (w := .w64) t.msb hl (lF_rep_encF (lF_rq_rep .w64 _))
    have hnear : |u.toInt - z.toInt| ≤ 1 := by
      refine near_big nu au cz ?_
      have h3 := rq_abs (ell t / n)
      have h4 := abs_sub_le p (ell t / n) (x80.rq (ell t / n))
      have h5 : |ell t / n| ≤ |x80.rq (ell t / n)| + |x80.rq (ell t / n) - ell t / n| := by
        have := abs_sub (x80.rq (ell t / n)) (x80.rq (ell t / n) - ell t / n)
        rwa [sub_sub_cancel] at this
      rw [abs_sub_comm (ell t / n)] at h4
      have h6 := abs_nonneg (x80.rq (ell t / n))
      show |p - x80.rq (ell t / n)| ≤ (20 + 8 * |x80.rq (ell t / n)|) / 2 ^ 64
      norm_num at hpp h3 ⊢
      linarith
    refine passed_int hE e hfin (el.trans eu) ez hnear cz.next.reg.2 fun _ hm => ?_
    by_cases ha : |n| = 1
    · -- the index 1 or -1
      obtain ⟨x, rx, mx, ex⟩ : ∃ x : T .w64, Regular x ∧ x.msb = t.msb ∧ ell x = ell t / n := by
        rcases (abs_eq (by norm_num : (0 : ℤ) ≤ 1)).mp ha with h | h
        · exact ⟨t, rt, rfl, by rw [h]; simp⟩
        · obtain ⟨i1, -, i3, i4⟩ := inversion_facts rt
          exact ⟨_, i3, i1, by rw [i4, h]; simp [div_neg]⟩
      have hux : u = x := by
        rw [← ex, (W.lF .w64).rq_of_rep (ell_in .w64 x).1] at hl
        have := enc_of_ell rx hl
        rw [mx, eu] at this
        exact Except.ok.inj this
      rw [hux]
      refine top_exact rx mx cz ?_ hm
      rw [ex]
      norm_num at hpp ⊢
      linarith
    · exfalso
      have n2 : 2 ≤ |(n : ℚ)| := by
        have : 2 ≤ |n| := by have := Int.one_le_abs n0; omega
        exact_mod_cast this
      have hlb : |ell t / n| ≤ 128 := by
        rw [abs_div]; exact div_le_of_le_mul₀ (by positivity) (by norm_num) (by nlinarith)
      have hm0 : t.msb = false := by
        by_contra h
        rw [Bool.not_eq_false] at h
        exact ha (by have := habs h; rwa [tn] at this)
      rw [hm0] at cz
      refine absurd hm (not_top cz.next ?_)
      have h1 := le_abs_self (p - ell t / n)
      have h2 := le_abs_self (ell t / n)
      norm_num at hpp
      linarith
  · obtain ⟨u, eu, nu⟩ := rq_next t.msb hl
    refine passed_int hE e hfin (el.trans eu) ez (near_small hw nu cz ?_) cz.next.reg.2 fun h => absurd h hw
    have h3 := ie2 t
    have h4 := abs_sub_le p (ell t / n) (ell t / w.lF.rq (n : ℚ))
    rw [abs_sub_comm (ell t / n)] at h4
    have h5 : |ell t / n| ≤ |ell t / w.lF.rq (n : ℚ)| + |ell t / w.lF.rq (n : ℚ) - ell t / n| := by
      have := abs_sub (ell t / w.lF.rq (n : ℚ)) (ell t / w.lF.rq (n : ℚ) - ell t / n)
      rwa [sub_sub_cancel] at this
    have h6 := abs_nonneg (ell t / w.lF.rq (n : ℚ))
    norm_num at hpp h3 ⊢
    linarith

/-- C91. The cases that are left out are not passed: the root of the negative number is a number, but the
reference, a power with an exponent that is not an integer, is NaN. -/
theorem root_odd_fails {E : Env} (hL : E.L.Conforming) (hE : Raises E (rootReference E.L)) (w : W) (t : T w)
    (rt : Regular t) (ht : t.toInt < 0) {n : ℤ} (hn : IsInt64 n) (ho : n % 2 = 1) (h1 : |n| ≠ 1) :
    ¬ PassedInt E (rootReference E.L) (fun k w t n => match k with
      | .log => root w t (BitVec.ofInt 64 n)
      | .lin => linRoot E.L w t (BitVec.ofInt 64 n)) .log w t n := by
  have h8 := w.n_pos
  have tn := toInt_int64 hn
  have n0 : n ≠ 0 := by omega
  have hm : t.msb = true := (isNeg_iff t).mp ht
  obtain ⟨y, ey, -, -, -, -, -, yi⟩ := root_exponent (n := BitVec.ofInt 64 n) (by rw [tn]; exact n0)
  rw [tn] at yi ey
  obtain ⟨f, v, e, i, iv, pv, -, -, -⟩ := arg_log hL.powers hL.accurate rt
  have hneg : sg t.msb * v < 0 := by rw [hm]; simp [sg]; exact pv
  have er : rootReference E.L f n = .nan := by
    unfold rootReference
    rw [if_neg n0, ey, i.eq_num hneg.ne]; exact hL.powSigns.not_int x80 _ y hneg (yi h1)
  obtain ⟨l, hl, el⟩ := root_regular rt (n := BitVec.ofInt 64 n) (by intro h; rw [← tn, h] at n0; exact n0 rfl) (by rw [tn]; exact fun _ => ho)
  rw [tn] at hl
  obtain ⟨u, eu, nu⟩ := rq_next t.msb hl
  rintro ⟨raw, ⟨a, ha, rfl⟩, u', r, hu', he, -, hd⟩
  rw [e] at ha
  obtain rfl := Except.ok.inj ha
  have hu' : root w t (BitVec.ofInt 64 n) = .ok u' := hu'
  rw [el, eu] at hu'
  obtain rfl := Except.ok.inj hu'
  obtain ⟨f1, -⟩ := hE .log w t n _ ⟨f, e, rfl⟩
  have o : (E.flags .log w t.toInt n).2 = false := by
    rw [← Bool.not_eq_true, f1]; intro h; simp only [er] at h; simp [Fl.isinf] at h
  rw [show E.flags .log w t.toInt n = ((E.flags .log w t.toInt n).1, false) by rw [← o]] at he
  simp only [er] at he
  have hr : r = -2 ^ (w.n - 1) := by
    generalize (E.flags .log w t.toInt n).1 = b at he
    cases he with
    | tiny _ _ h h0 => simp [Fl.isfinite] at h0
    | regular _ x _ hx =>
      rw [fromExt_nonfinite _ _ _ rfl] at hx
      obtain rfl := Except.ok.inj hx
      exact nar_toInt (by omega)
  -- the result is not next to NaR
  have n3 : (3 : ℚ) ≤ |(n : ℚ)| := by
    have : 3 ≤ |n| := by
      rcases abs_cases n with h | h <;> omega
    exact_mod_cast this
  have r3 : (3 : ℚ) ≤ |w.lF.rq (n : ℚ)| := by
    have rep : w.lF.Rep ((3 : ℤ) : ℚ) := Fmt.Rep.int (by have := w.lF_prec; omega) (by
      have : (2 : ℤ) ^ 24 ≤ 2 ^ w.lF.prec := pow_le_pow_right₀ (by norm_num) w.lF_prec.1
      rw [abs_of_pos (by norm_num)]
      omega)
    rw [← Fmt.abs_rq]; exact w.lF.le_rq (by have := w.lF_prec; omega) (by exact_mod_cast rep) n3
  have hq : ell t / w.lF.rq (n : ℚ) ≤ 100 := by
    refine (le_abs_self _).trans ?_
    have := abs_ell_lt t
    rw [abs_div]; exact div_le_of_le_mul₀ (by positivity) (by norm_num) (by nlinarith)
  obtain ⟨x, rx, mx, ex, tx⟩ : ∃ x : T w, Regular x ∧ x.msb = true ∧ 100 ≤ ell x ∧ x.toInt = -2 ^ (w.n - 1) + 2 := by
    cases w
    · exact ⟨0x82#8, ⟨by decide, by decide⟩, by decide, by decide +kernel, by decide⟩
    · exact ⟨0x8002#16, ⟨by decide, by decide⟩, by decide, by decide +kernel, by decide⟩
    · exact ⟨0x80000002#32, ⟨by decide, by decide⟩, by decide, by decide +kernel, by decide⟩
    · exact ⟨0x8000000000000002#64, ⟨by decide, by decide⟩, by decide, by decide +kernel, by decide⟩
  have := (nu.order x rx (mx.trans hm.symm)).1 (by rw [hm]; simp [sg]; linarith)
  rw [hr, abs_le] at hd
  omega

theorem root_defined (w : W) (t : T w) (n : BitVec 64) : ∃ u, root w t n = .ok u := by
  obtain ⟨s1, s2⟩ := root_special w t n
  by_cases h : t = nar w.n ∨ n = 0#64 ∨ (t.toInt < 0 ∧ n.toInt % 2 = 0) ∨ (t = 0#w.n ∧ n.toInt < 0)
  · exact ⟨_, s1.mpr h⟩
  by_cases h' : t = 0#w.n ∧ 0 < n.toInt
  · exact ⟨_, s2.mpr h'⟩
  push Not at h h'
  have t0 : t ≠ 0#w.n := fun e => h.2.1 (BitVec.eq_of_toInt_eq (le_antisymm (h' e) (h.2.2.2 e)))
  obtain ⟨v, e, -⟩ := root_sign w t ⟨t0, h.1⟩ n h.2.1 fun hn => by have := h.2.2.1 hn; omega
  exact ⟨v, e⟩

/-- C91. The test program of the root reports no failure. -/
theorem root_test_passes {E : Env} (hL : E.L.Conforming) (hA : E.L.Approximates) (hE : Raises E (rootReference E.L)) :
    rootMain E = .ok 0 := by
  refine block_types (blk := rootBlock E integerCases) fun k w => ?_
  cases k
  · refine type_passI cases_ok.1 cases_ok.2.1 cases_ok.2.2 .log w fun t n hn =>
      log_root_case hL hA hE w t (cases_int64 n hn) fun _ => ?_
    revert n hn
    decide
  · exact root_passes hL hE w cases_ok.1 cases_ok.2.1 cases_ok.2.2 cases_int64

/-- C91. With a list that contains an odd index other than 1 and -1 the tests of logarithmic takums of 8 and
of 16 bits report a failure, although the roots are right. -/
theorem root_test_fails {E : Env} (hL : E.L.Conforming) (hE : Raises E (rootReference E.L)) {w : W}
    (hw : w = .w8 ∨ w = .w16) {cases : List ℤ} (hc : cases.Nodup) (hl : cases.length ≤ 64)
    {n : ℤ} (hm : n ∈ cases) (hn : IsInt64 n) (ho : n % 2 = 1) (h1 : |n| ≠ 1) :
    ∃ p t, runType E (rootBlock E cases) .log w (2 ^ 22) = .ok ⟨1, p, t⟩ := by
  have hw64 : w ≠ .w64 := by rcases hw with rfl | rfl <;> decide
  have h0 : 0 < cases.length := List.length_pos_of_mem hm
  have hsz : 2 ^ w.n ≤ 2 ^ 16 := by rcases hw with rfl | rfl <;> decide
  have hsz2 : 2 ^ w.n * cases.length ≤ 2 ^ 22 := by
    calc 2 ^ w.n * cases.length ≤ 2 ^ 16 * 64 := Nat.mul_le_mul hsz hl
      _ = 2 ^ 22 := by norm_num
  obtain ⟨r1, -⟩ := int_report (E := E) (ref := rootReference E.L) (f := fun k w t n => match k with
      | .log => root w t (BitVec.ofInt 64 n)
      | .lin => linRoot E.L w t (BitVec.ofInt 64 n)) hc h0 (k := .log) hw64 hsz2 (lt_of_le_of_lt hsz2 (by norm_num))
    (fun d => DefinedInt E (rootReference E.L) _ .log w d.1 cases[d.2])
    (fun d => PassedInt E (rootReference E.L) _ .log w d.1 cases[d.2])
    (fun t j => (case_int t _).1) (fun t j => (case_int t _).2)
  obtain ⟨s, e, hs, hs0⟩ := r1 (by
    rintro ⟨t, j⟩
    obtain ⟨a, ha⟩ := toExt_ok E.L .log w t
    obtain ⟨u, hu⟩ := root_defined w t (BitVec.ofInt 64 cases[j])
    obtain ⟨r, -, -, hr⟩ := saturate_spec E.L .log w (rootReference E.L a cases[j]) (E.flags .log w t.toInt cases[j])
    exact ⟨_, ⟨a, ha, rfl⟩, u, r, hu, (hr r).mpr rfl, fun h => absurd h hw64⟩)
  obtain ⟨j, hj⟩ := List.mem_iff_get.mp hm
  obtain ⟨t, rt, ht⟩ : ∃ t : T w, Regular t ∧ t.toInt < 0 := by
    rcases hw with rfl | rfl
    · exact ⟨0xc0#8, ⟨by decide, by decide⟩, by decide⟩
    · exact ⟨0xc000#16, ⟨by decide, by decide⟩, by decide⟩
  have bad := root_odd_fails hL hE w t rt ht hn ho h1
  have sne : s ≠ 0 := fun h => bad (by
    have := hs0.mp h (t, j)
    simp only [Fin.getElem_fin] at this
    rw [← List.get_eq_getElem, hj] at this
    exact this)
  obtain rfl := hs.resolve_left sne
  exact ⟨_, _, e⟩

/-! ### The integer power -/

/-- Takums next to a number beyond their range. -/
theorem Next.sat {w : W} {s : Bool} {q : ℚ} {u : T w} (h : Next s q u) :
    (256 ≤ q → u.toInt = if s then -(2 ^ (w.n - 1) - 1) else 2 ^ (w.n - 1) - 1) ∧
      (q ≤ -256 → u.toInt = if s then -1 else 1) := by
  have h8 := w.n_pos
  have h1 : 1 ≤ w.n := by omega
  obtain ⟨u1, u2⟩ := toInt_InW u
  have nn : (nar w.n).toInt = -2 ^ (w.n - 1) := nar_toInt (by omega)
  have un : u.toInt ≠ -2 ^ (w.n - 1) := fun e => h.reg.2 (BitVec.eq_of_toInt_eq (e.trans nn.symm))
  have u0 : u.toInt ≠ 0 := fun e => h.reg.1 (BitVec.eq_of_toInt_eq (e.trans (by simp)))
  have neg : u.msb = true ↔ u.toInt < 0 := by rw [BitVec.msb_eq_toInt]; simp
  have hb : ∀ t : T w, -256 < ell t ∧ ell t < 256 := fun t => abs_lt.mp (abs_ell_lt t)
  have hm := h.sign
  have ex : ∀ i : ℤ, InW w i → ∃ t : T w, t.toInt = i := fun i hi => ⟨BitVec.ofInt w.n i, toInt_ofInt_W hi⟩
  obtain ⟨p1, p2, -⟩ := two_pow_W w
  have p : (4 : ℤ) ≤ 2 ^ (w.n - 1) := by
    calc (4 : ℤ) = 2 ^ 2 := by norm_num
      _ ≤ 2 ^ (w.n - 1) := pow_le_pow_right₀ (by norm_num) (by omega)
  have reg : ∀ t : T w, t.toInt ≠ 0 → t.toInt ≠ -2 ^ (w.n - 1) → Regular t := fun t a b =>
    ⟨fun e => a (by rw [e]; simp), fun e => b (by rw [e, nn])⟩
  have sgn : ∀ t : T w, t.msb = decide (t.toInt < 0) := fun t => by rw [BitVec.msb_eq_toInt]
  cases s
  · have up : 0 < u.toInt := by
      rw [hm] at neg
      have : ¬ u.toInt < 0 := fun h => by simpa using neg.mpr h
      omega
    constructor <;> intro hq
    · obtain ⟨t, ht⟩ := ex (2 ^ (w.n - 1) - 1) ⟨by omega, by omega⟩
      have := (h.order t (reg t (by omega) (by omega)) (by rw [sgn, ht]; simp; omega)).1 (by simp [sg]; linarith [(hb t).2])
      simp only [Bool.false_eq_true, if_false]
      omega
    · obtain ⟨t, ht⟩ := ex 1 ⟨by omega, by omega⟩
      have := (h.order t (reg t (by omega) (by omega)) (by rw [sgn, ht]; simp)).2 (by simp [sg]; linarith [(hb t).1])
      simp only [Bool.false_eq_true, if_false]
      omega
  · have up : u.toInt < 0 := neg.mp hm
    constructor <;> intro hq
    · obtain ⟨t, ht⟩ := ex (-(2 ^ (w.n - 1) - 1)) ⟨by omega, by omega⟩
      have := (h.order t (reg t (by omega) (by omega)) (by rw [sgn, ht]; simp; omega)).2 (by simp [sg]; linarith [(hb t).2])
      simp only [if_true]
      omega
    · obtain ⟨t, ht⟩ := ex (-1) ⟨by omega, by omega⟩
      have := (h.order t (reg t (by omega) (by omega)) (by rw [sgn, ht]; simp)).1 (by simp [sg]; linarith [(hb t).1])
      simp only [if_true]
      omega

/-- `ℓ` is 0 or not close to it. -/
theorem ell_zero_or {w : W} (t : T w) : ell t = 0 ∨ 1 / 2 ^ (w.n - 5) ≤ |ell t| := by
  obtain ⟨z, hz, e⟩ : ∃ z : T w, z.msb = t.msb ∧ ell z = 0 := by
    cases t.msb <;> cases w
    · exact ⟨0x40#8, by decide, by decide +kernel⟩
    · exact ⟨0x4000#16, by decide, by decide +kernel⟩
    · exact ⟨0x40000000#32, by decide, by decide +kernel⟩
    · exact ⟨0x4000000000000000#64, by decide, by decide +kernel⟩
    · exact ⟨0xc0#8, by decide, by decide +kernel⟩
    · exact ⟨0xc000#16, by decide, by decide +kernel⟩
    · exact ⟨0xc0000000#32, by decide, by decide +kernel⟩
    · exact ⟨0xc000000000000000#64, by decide, by decide +kernel⟩
  by_cases h : z = t
  · left; rw [← h, e]
  · right
    have g := ell_gap hz h
    rw [e, sub_zero, abs_zero] at g
    refine le_trans ?_ g
    gcongr
    exact le_max_left _ _

/-- C91. Every case of the test of the integer power of logarithmic takums of 8, 16 and 32 bits is passed,
with every `int64_t` as exponent. -/
theorem log_power_case {E : Env} (hL : E.L.Conforming) (hA : E.L.Approximates)
    (hE : Raises E (integerPowerReference E.L)) {w : W} (hw : w ≠ .w64) (t : T w) {n : ℤ} (hn : IsInt64 n) :
    PassedInt E (integerPowerReference E.L) (fun k w t n => integerPowerOf E.L k w t (BitVec.ofInt 64 n)) .log w t n := by
  have tn := toInt_int64 hn
  have efun : integerPowerOf E.L .log w t (BitVec.ofInt 64 n) = integerPower E.L w t (BitVec.ofInt 64 n) := rfl
  obtain ⟨s1, s2⟩ := integerPower_special E.L w hw t (BitVec.ofInt 64 n)
  rw [tn] at s1 s2
  have io : (Fl.ofInt x80 n).Is ((n : ℤ) : ℚ) := by
    have := Fl.Is.ofInt_in (int64_in (BitVec.ofInt 64 n)); rwa [tn] at this
  have ii : x80.In ((n : ℤ) : ℚ) := by have := int64_in (BitVec.ofInt 64 n); rwa [tn] at this
  rcases takum_cases t with t0 | h | rt
  · subst t0
    have ha := toExt_zero hL.powers .log w
    refine int_regular hE ha ?_ (fun _ => rfl) (fun _ => rfl)
    show integerPowerOf E.L .log w _ _ = _
    rw [efun]
    by_cases hp : 0 < n
    · rw [s2.mpr ⟨rfl, hp⟩]
      have np : (0 : ℚ) < n := by exact_mod_cast hp
      have : ∃ s, integerPowerReference E.L (.zero false) n = .zero s := by
        unfold integerPowerReference
        rw [if_neg (by simp [Fl.isnan]; intro _; omega), io.eq_num np.ne']
        exact hL.powSigns.zero_pos x80 false _ np
      obtain ⟨s, e⟩ := this
      rw [e, fromExt_zero]
    · rw [s1.mpr (.inr ⟨rfl, not_lt.mp hp⟩), bad_from]
      unfold integerPowerReference
      by_cases n0 : n = 0
      · rw [if_pos (by simp [n0, Fl.eq, Fl.toQ])]; rfl
      · have hq : ((n : ℤ) : ℚ) < 0 := by exact_mod_cast lt_of_le_of_ne (not_lt.mp hp) n0
        rw [if_neg (by simp [n0, Fl.isnan]), io.eq_num hq.ne]
        have := hL.specials.zero_neg x80 false _ hq
        cases hr : E.L.pow x80 (.zero false) (.num (n : ℚ)) <;> rw [hr] at this <;> first | rfl | exact absurd this (by simp [Fl.isinf])
  · subst h
    have ha := toExt_nar hL.powers .log w
    have e : integerPowerReference E.L .nan n = .nan := rfl
    refine int_regular hE ha ?_ (by simp [e, Fl.isinf]) (by simp [e, Fl.isfinite])
    rw [e, bad_from E.L .log w rfl]
    exact efun.trans (s1.mpr (.inl rfl))
  obtain ⟨f, v, e, i, iv, pv, hv, -, -⟩ := arg_log hL.powers hL.accurate rt
  have hne : sg t.msb * v ≠ 0 := arg_ne pv
  have hf := i.eq_num hne
  have eref : integerPowerReference E.L f n = E.L.pow x80 f (Fl.ofInt x80 n) := by
    unfold integerPowerReference
    rw [if_neg]
    rw [hf]
    simp [Fl.isnan, Fl.eq, Fl.toQ]
    intro h
    exact absurd h (by simpa using hne)
  have rv : (0 : ℝ) < v := by exact_mod_cast pv
  have p : 0 < (v : ℝ) ^ n := zpow_pos rv _
  -- the power
  obtain ⟨Y, ap, Y0, Ys, Yl⟩ : ∃ Y : ℝ, Approx x80 Y (integerPowerReference E.L f n) ∧ Y ≠ 0 ∧
      decide (Y < 0) = (t.msb && odd n) ∧ Real.log (|Y|) = n * Real.log v := by
    have ap := hA.pow_int x80 (.inr rfl) f (Fl.ofInt x80 n) _ n i iv hne io ii
    have eY : (((sg t.msb * v : ℚ) : ℝ)) ^ n = ((sg (t.msb && odd n) : ℚ) : ℝ) * (v : ℝ) ^ n := by
      rw [Rat.cast_mul, mul_zpow]
      congr 1
      cases t.msb
      · simp [sg]
      · cases ho : odd n
        · have : ¬ n % 2 = 1 := by rw [← odd_iff, ho]; decide
          have hev : Even n := by rw [Int.even_iff]; omega
          simp [sg, hev.neg_one_zpow]
        · have hod : Odd n := by rw [Int.odd_iff]; exact (odd_iff n).mp ho
          simp [sg, hod.neg_one_zpow]
    rw [eY, ← eref] at ap
    refine ⟨_, ap, ?_, ?_, ?_⟩
    · cases t.msb && odd n <;> simp [sg, p.ne']
    · cases t.msb && odd n <;> simp [sg, p, p.le]
    · rw [abs_mul, abs_of_pos p, ← Real.log_zpow]
      congr 1
      cases t.msb && odd n <;> simp [sg]
  obtain ⟨l, hl, el⟩ := integerPowerL_regular rt (BitVec.ofInt 64 n)
  rw [tn] at hl el
  obtain ⟨u, eu, nu⟩ := rq_next (t.msb && odd n) hl
  have hu : integerPowerOf E.L .log w t (BitVec.ofInt 64 n) = .ok u := by
    rw [efun, integerPower_eq E.L hw, el, eu]
  obtain ⟨x1, x2⟩ := exponent_err (w := w) (BitVec.ofInt 64 n)
  rw [tn] at x1 x2
  obtain ⟨c1, c2⟩ := sqe_log_bounds
  have hw5 : (2 : ℚ) ^ (w.n - 5) ≤ 2 ^ 27 :=
    pow_le_pow_right₀ (by norm_num) (by cases w <;> first | decide | exact absurd rfl hw)
  have small : ∀ q lam : ℚ, q = ell t * n → |q| ≤ 700 → lam ≤ |q| * 4.01 / 2 ^ 37 →
      |Real.log (|Y|) - (q : ℝ) * Real.log (sqe x80)| ≤ lam → ell t * w.lF.rq (n : ℚ) = q →
      PassedInt E (integerPowerReference E.L) (fun k w t n => integerPowerOf E.L k w t (BitVec.ofInt 64 n)) .log w t n := by
    intro q lam hq h1 h2 h3 h4
    obtain ⟨hfin, p, z, ez, cz, hp⟩ := approx_conv hL.accurate w ap Y0 h3 h1 (h2.trans (by norm_num; linarith))
    rw [Ys] at cz
    rw [h4] at nu
    refine passed_int hE e hfin hu ez (near_small hw nu cz ?_) cz.next.reg.2 fun h => absurd h hw
    have := abs_nonneg q
    norm_num at hp h2 ⊢
    linarith
  rcases ell_zero_or t with z0 | z1
  · -- the numbers 1 and -1
    have hu1 := logTo_unit hL.specials .ext w rt z0
    have e' : logTo E.L .ext w t = .ok f := e
    rw [e'] at hu1
    have hf' := Except.ok.inj hu1
    rw [hf] at hf'
    have v1 : v = 1 := by
      injection hf' with h
      cases hm : t.msb <;> rw [hm] at h <;> simpa [sg] using h
    have l0 : Real.log (|Y|) = 0 := by rw [Yl, v1]; simp
    exact small 0 0 (by rw [z0]; simp) (by simp) (by simp) (by rw [l0]; simp) (by rw [z0]; simp)
  · have z2 : 1 / 2 ^ 27 ≤ |ell t| := by
      refine le_trans ?_ z1
      gcongr
    have he0 : 0 < |ell t| := lt_of_lt_of_le (by positivity) z2
    have lamq : |Real.log (|Y|) - ((ell t * n : ℚ) : ℝ) * Real.log (sqe x80)| ≤ ((|ell t * n| * 4.01 / 2 ^ 37 : ℚ) : ℝ) := by
      have e1 : Real.log (|Y|) - ((ell t * n : ℚ) : ℝ) * Real.log (sqe x80) = n * (Real.log v - (ell t : ℝ) * Real.log (sqe x80)) := by
        rw [Yl]; push_cast; ring
      rw [e1, abs_mul]
      have h1 : |(n : ℝ)| * |Real.log v - (ell t : ℝ) * Real.log (sqe x80)| ≤ |(n : ℝ)| * ((4.01 / 2 ^ 64 : ℚ) : ℝ) := by gcongr
      have h2 : |(n : ℚ)| * (4.01 / 2 ^ 64) ≤ |ell t * n| * 4.01 / 2 ^ 37 := by
        rw [abs_mul]
        have h3 : |(n : ℚ)| * (1 / 2 ^ 27) ≤ |(n : ℚ)| * |ell t| := by gcongr
        calc |(n : ℚ)| * (4.01 / 2 ^ 64) = |(n : ℚ)| * (1 / 2 ^ 27) * (4.01 / 2 ^ 37) := by ring
          _ ≤ |(n : ℚ)| * |ell t| * (4.01 / 2 ^ 37) := by gcongr
          _ = _ := by ring
      have h3 := (Rat.cast_le (K := ℝ)).mpr h2
      rw [Rat.cast_mul, Rat.cast_abs, Rat.cast_intCast] at h3
      exact h1.trans h3
    by_cases hb : |ell t * n| ≤ 600
    · refine small _ _ rfl (by linarith) le_rfl lamq ?_
      rw [x2 ?_]
      have h1 : |(n : ℚ)| ≤ 600 * 2 ^ (w.n - 5) := by
        rw [abs_mul] at hb
        have h2 : 1 / 2 ^ (w.n - 5) * |(n : ℚ)| ≤ 600 := le_trans (by gcongr) hb
        rwa [one_div_mul_eq_div, div_le_iff₀ (by positivity)] at h2
      have h2 : |n| ≤ 600 * 2 ^ (w.n - 5) := by exact_mod_cast h1
      refine lt_of_le_of_lt h2 ?_
      cases w
      · decide
      · decide
      · decide
      · exact absurd rfl hw
    · -- beyond the range
      have hb := not_le.mp hb
      have n0 : n ≠ 0 := by rintro rfl; norm_num at hb
      have nq : ((n : ℤ) : ℚ) ≠ 0 := by exact_mod_cast n0
      obtain ⟨f1, f2⟩ := hE .log w t n _ ⟨f, e, rfl⟩
      simp only at f1 f2
      obtain ⟨-, -, r3⟩ := hL.powSigns.regular x80 (.inr rfl) _ _ hne nq iv ii (.inr ⟨_, rfl⟩)
      rw [odd_rat, ← hf, ← io.eq_num nq, ← eref] at r3
      have hs : (integerPowerReference E.L f n).sgn = true ↔ Y < 0 := by
        rw [r3, ← decide_eq_true_iff (p := Y < 0), Ys, Bool.and_eq_true, odd_iff]
        have : sg t.msb * v < 0 ↔ t.msb = true := by
          rw [← decide_eq_true_iff (p := sg t.msb * v < 0), dec_sg pv]
        rw [this]
      obtain ⟨g1, g2⟩ := expected_sat hL w ap Y0 (fun _ => hs) (fl := E.flags .log w t.toInt n)
        (by rw [f1]; exact ⟨fun h => h.1, fun h => ⟨h, rt.1⟩⟩) (fun h => (f2 h).mpr rt.1)
      have eY : (Y < 0) = ((t.msb && odd n) = true) := by rw [← Ys, decide_eq_true_iff]
      simp only [eY] at g1 g2
      obtain ⟨q1, q2⟩ := nu.sat
      -- both have the sign of the product
      have hq : |ell t * w.lF.rq (n : ℚ) - ell t * n| ≤ |ell t * n| / 2 ^ 24 := by
        rw [← mul_sub, abs_mul, abs_mul, mul_div_assoc]
        gcongr
      have lq : |Real.log (|Y|) - ((ell t * n : ℚ) : ℝ) * Real.log (sqe x80)| ≤ |((ell t * n : ℚ) : ℝ)| * 0.0001 := by
        refine lamq.trans ?_
        rw [← Rat.cast_abs]
        have : |ell t * n| * 4.01 / 2 ^ 37 ≤ |ell t * n| * 0.0001 := by
          rw [mul_div_assoc]; gcongr; norm_num
        have := (Rat.cast_le (K := ℝ)).mpr this
        refine this.trans (le_of_eq ?_)
        push_cast; norm_num
      rcases le_total 0 (ell t * n) with hp | hp
      · rw [abs_of_nonneg hp] at hb hq
        have hbR : (600 : ℝ) < ((ell t * n : ℚ) : ℝ) := by exact_mod_cast hb
        rw [abs_of_nonneg (a := ((ell t * n : ℚ) : ℝ)) (by linarith)] at lq
        refine int_equal e hu ?_
        rw [q1 ?_]
        · refine g1 ?_
          have := (abs_le.mp lq).1
          nlinarith
        · have := (abs_le.mp hq).1
          norm_num at this
          linarith
      · rw [abs_of_nonpos hp] at hb hq
        have hbR : ((ell t * n : ℚ) : ℝ) < -600 := by
          have : ell t * n < -600 := by linarith
          exact_mod_cast this
        rw [abs_of_nonpos (a := ((ell t * n : ℚ) : ℝ)) (by linarith)] at lq
        refine int_equal e hu ?_
        rw [q2 ?_]
        · refine g2 ?_
          have := (abs_le.mp lq).2
          nlinarith
        · have := (abs_le.mp hq).2
          norm_num at this
          linarith

/-- C91. The tests of the integer power report no failure, for both kinds, all widths and any list of
integers. -/
theorem power_types {E : Env} (hL : E.L.Conforming) (hA : E.L.Approximates)
    (hE : Raises E (integerPowerReference E.L)) {cases : List ℤ} (hc : cases.Nodup) (h0 : 0 < cases.length)
    (hl : cases.length < 2 ^ 22) (hi : ∀ n ∈ cases, IsInt64 n) :
    runBlock E (integerPowerBlock E cases) = .ok 0 := by
  refine block_types (blk := integerPowerBlock E cases) fun k w => ?_
  by_cases hk : k = .lin ∨ w = .w64
  · exact type_passI hc h0 hl k w fun t n hn => power_case hL hE hk t (hi n hn)
  · push Not at hk
    obtain rfl : k = .log := by cases k <;> simp at hk ⊢
    exact type_passI hc h0 hl .log w fun t n hn => log_power_case hL hA hE hk.2 t (hi n hn)

/-- C91. The test program of the integer power reports no failure. -/
theorem power_test_passes {E : Env} (hL : E.L.Conforming) (hA : E.L.Approximates)
    (hE : Raises E (integerPowerReference E.L)) : integerPowerMain E = .ok 0 :=
  power_types hL hA hE cases_ok.1 cases_ok.2.1 cases_ok.2.2 cases_int64

/-! ## Examples -/

example : integerPowerMain (raising ideal (integerPowerReference ideal)) = .ok 0 :=
  power_test_passes ideal_conforming ideal_approximates (raising_raises _ _)

example : rootMain (raising ideal (rootReference ideal)) = .ok 0 :=
  root_test_passes ideal_conforming ideal_approximates (raising_raises _ _)

example : ∃ p t, runType (raising ideal (rootReference ideal))
    (rootBlock (raising ideal (rootReference ideal)) (3 :: integerCases)) .log .w16 (2 ^ 22) = .ok ⟨1, p, t⟩ :=
  root_test_fails ideal_conforming (raising_raises _ _) (.inr rfl) (by decide) (by decide) (n := 3) (by decide)
    (by unfold IsInt64; decide) (by decide) (by decide)

/-- The third root of -1 is -1. -/
example : Regular (0xc000#16 : T .w16) ∧ (0xc000#16).toInt < 0 ∧ root .w16 0xc000#16 3#64 = .ok 0xc000#16 :=
  ⟨⟨by decide, by decide⟩, by decide, by decide +kernel⟩

end Takum.Test
