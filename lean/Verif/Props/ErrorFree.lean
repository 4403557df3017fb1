import Verif.Props.Sterbenz
import Verif.Props.LinWide

/-!
# C113: the rounding error of a linear sum is a takum, and can be computed
-/

namespace Takum
open Spec

/-- The unit in the last place of `b`. -/
def ulp {w : W} (b : T w) : ℚ := (2 : ℚ) ^ (⌊ell b⌋ - (w.n - 5 : ℕ) + rg ⌊ell b⌋)

theorem ell_range {w : W} {t : T w} (ht : Regular t) : -255 ≤ ell t ∧ ell t < 255 := by
  have h5 : 5 ≤ w.n := by have := w.n_pos; omega
  have rng : ∀ t : T w, t.msb = false → -255 ≤ ell t ∧ ell t < 255 := fun t h => by
    rw [ell_sg h5, h]; simp only [sg, Bool.false_eq_true, if_false, one_mul]
    exact ⟨psi_ge (pos_nonneg t) (pos_lt h5 t), psi_lt_255 (pos_nonneg t) (pos_lt h5 t)⟩
  cases hs : t.msb
  · exact rng t hs
  · obtain ⟨n1, -, -, n4⟩ := regular_neg h5 ht
    rw [← n4]; exact rng _ (by rw [n1, hs]; rfl)

theorem floor_range {z : ℚ} (h : -255 ≤ z) (h' : z < 255) : -255 ≤ ⌊z⌋ ∧ ⌊z⌋ < 255 :=
  ⟨by rw [Int.le_floor]; exact_mod_cast h, by rw [Int.floor_lt]; exact_mod_cast h'⟩

theorem unit_mono {c c' : ℤ} (g1 : -255 ≤ c) (g2 : c ≤ c') (g3 : c' < 255) : c + rg c ≤ c' + rg c' := by
  obtain ⟨k, hk⟩ := Int.eq_ofNat_of_zero_le (sub_nonneg.mpr g2)
  have := lsb_mono g1 k (by omega)
  rwa [show c + (k : ℤ) = c' by omega] at this

/-- A takum is a multiple of the unit of every takum that is not larger. -/
theorem mult_ulp {w : W} (hw : 12 ≤ w.n) {t b : T w} (rt : Regular t) (rb : Regular b) (h : |lv b| ≤ |lv t|) : ∃ k : ℤ, lv t = k * ulp b := by
  obtain ⟨t1, t2⟩ := floor_range (ell_range rt).1 (ell_range rt).2
  obtain ⟨b1, b2⟩ := floor_range (ell_range rb).1 (ell_range rb).2
  rw [lv_abs, lv_abs, lam_strictMono.le_iff_le] at h
  have e := unit_mono b1 (Int.floor_le_floor h) t2
  obtain ⟨i1, i2, -⟩ := rg_spec t1 t2
  obtain ⟨k, hk⟩ := lam_multiple hw t i1 i2 (lam_bounds _).1 (lam_bounds _).2.le
  obtain ⟨i, hi⟩ := zpow_multiple (c := ⌊ell t⌋ - (w.n - 5 : ℕ) + rg ⌊ell t⌋) (d := ⌊ell b⌋ - (w.n - 5 : ℕ) + rg ⌊ell b⌋) (by omega)
  rw [hi, ← lv_abs] at hk
  rcases le_or_gt 0 (lv t) with g | g
  · exact ⟨k * i, by rw [abs_of_nonneg g] at hk; rw [hk]; unfold ulp; push_cast; ring⟩
  · exact ⟨-(k * i), by rw [abs_of_neg g] at hk; rw [← neg_neg (lv t), hk]; unfold ulp; push_cast; ring⟩

theorem lv_neg_takum {w : W} {t : T w} (rt : Regular t) : Regular (-t) ∧ lv (-t) = -lv t := by
  have rn := (regular_neg (by have := w.n_pos; omega) rt).2.2.1
  exact ⟨rn, by rw [← qv_regular rn, qv_neg rt.2, qv_regular rt]⟩

theorem regular_one (w : W) : Regular (1#w.n : T w) ∧ (1#w.n : T w).msb = false := by
  refine ⟨?_, by cases w <;> decide⟩
  cases w <;> exact ⟨by decide, by decide⟩

theorem lv_pos_of {w : W} {t : T w} (h : t.msb = false) : 0 < lv t :=
  lt_of_le_of_ne (not_lt.mp fun hc => by rw [lv_neg_iff, h] at hc; exact absurd hc (by decide)) (lv_ne t).symm

/-- A multiple of the unit of `b` that is not larger than `b` is a takum. -/
theorem ulp_takum {w : W} (hw : 12 ≤ w.n) {b : T w} (rb : Regular b) {d : ℚ} (h1 : lv (1#w.n : T w) ≤ |d|) (h2 : |d| ≤ |lv b|) {K : ℤ}
    (hK : d = K * ulp b) : ∃ t : T w, Regular t ∧ lv t = d := by
  have h5 : 5 ≤ w.n := by omega
  obtain ⟨r1, m1⟩ := regular_one w
  have key : ∀ (d : ℚ) (K : ℤ), 0 < d → lv (1#w.n : T w) ≤ d → d ≤ |lv b| → d = K * ulp b → ∃ t : T w, Regular t ∧ lv t = d := by
    intro d K d0 h1 h2 hK
    have hz : ∀ d : ℤ, (0 : ℚ) < (2 : ℚ) ^ d := fun d => zpow_pos (by norm_num) _
    have dl := lam_lamInv d0
    set y := lamInv d with hy
    have one : -255 < ell (1#w.n : T w) := by
      refine lt_of_le_of_ne (ell_range r1).1 fun e => ?_
      have h0 : ell (0#w.n : T w) = -255 := by
        have : low (0#w.n : T w) = 0 := by unfold low; simp
        rw [ell_sg h5]; unfold pos; rw [this]
        simp [psi_zero, sg]
      have : (1#w.n : T w) = 0#w.n := ell_inj h5 (by rw [m1]; simp) (by rw [h0, ← e])
      revert this; cases w <;> decide
    have e1 : lv (1#w.n : T w) = lam (ell (1#w.n : T w)) := by rw [← lv_abs, abs_of_pos (lv_pos_of m1)]
    have y1 : -255 < y := lt_of_lt_of_le one (lam_strictMono.le_iff_le.mp (by rw [dl, ← e1]; exact h1))
    have yb : y ≤ ell b := lam_strictMono.le_iff_le.mp (by rw [dl, ← lv_abs]; exact h2)
    have y2 : y < 255 := lt_of_le_of_lt yb (ell_range rb).2
    obtain ⟨fb1, fb2⟩ := floor_range (ell_range rb).1 (ell_range rb).2
    obtain ⟨fy1, fy2⟩ := floor_range y1.le y2
    have e2 := unit_mono fy1 (Int.floor_le_floor yb) fb2
    obtain ⟨i, hi⟩ := zpow_multiple (c := ⌊ell b⌋ - (w.n - 5 : ℕ) + rg ⌊ell b⌋) (d := ⌊y⌋ - (w.n - 5 : ℕ) + rg ⌊y⌋) (by omega)
    have hK : d = ((K * i : ℤ) : ℚ) * (2 : ℚ) ^ (⌊y⌋ - (w.n - 5 : ℕ) + rg ⌊y⌋) := by rw [hK]; unfold ulp; rw [hi]; push_cast; ring
    generalize K * i = K at hK
    have r8 := (rg_spec fy1 fy2).1
    obtain ⟨m, hm'⟩ : ∃ m : ℕ, w.n - 5 = rg ⌊y⌋ + m := ⟨w.n - 5 - rg ⌊y⌋, by omega⟩
    obtain ⟨t, rt, mt, et⟩ := takum_exists (n := w.n) hw y1 y2 (j := K + (⌊y⌋ - 1) * 2 ^ m) (by
      have la := lam_affine (Int.floor_le y) (Int.lt_floor_add_one y).le
      rw [dl, hK, hm'] at la
      have e : (2 : ℚ) ^ (⌊y⌋ - ((rg ⌊y⌋ + m : ℕ) : ℤ) + rg ⌊y⌋) * 2 ^ m = (2 : ℚ) ^ ⌊y⌋ := by
        rw [← zpow_natCast (2 : ℚ) m, ← zpow_add₀ (by norm_num)]; congr 1; push_cast; ring
      rw [← e] at la
      have hE := (hz (⌊y⌋ - ((rg ⌊y⌋ + m : ℕ) : ℤ) + rg ⌊y⌋)).ne'
      generalize (2 : ℚ) ^ (⌊y⌋ - ((rg ⌊y⌋ + m : ℕ) : ℤ) + rg ⌊y⌋) = E at la hE
      have la' : (K : ℚ) = (1 + (y - ⌊y⌋)) * 2 ^ m := by
        apply mul_right_cancel₀ hE; linear_combination la
      rw [hm', pow_add]
      push_cast
      linear_combination -(2 : ℚ) ^ rg ⌊y⌋ * la')
    exact ⟨t, rt, by rw [← abs_of_pos (lv_pos_of mt), lv_abs, et, dl]⟩
  have p1 := lv_pos_of m1
  rcases lt_trichotomy d 0 with g | g | g
  · rw [abs_of_neg g] at h1 h2
    obtain ⟨t, rt, et⟩ := key (-d) (-K) (by linarith) h1 h2 (by rw [hK]; push_cast; ring)
    obtain ⟨rn, en⟩ := lv_neg_takum rt
    exact ⟨-t, rn, by rw [en, et, neg_neg]⟩
  · rw [g, abs_zero] at h1; linarith
  · rw [abs_of_pos g] at h1 h2
    exact key d K g h1 h2 hK

theorem lv_min {w : W} {t : T w} (rt : Regular t) : lv (1#w.n : T w) ≤ |lv t| := by
  obtain ⟨r1, m1⟩ := regular_one w
  have key : ∀ t : T w, Regular t → t.msb = false → lv (1#w.n : T w) ≤ lv t := fun t rt mt => by
    rw [← qv_regular r1, ← qv_regular rt, qv_le_iff r1.2 rt.2]
    have h0 : 0 < t.toNat := Nat.pos_of_ne_zero fun e => rt.1 (BitVec.eq_of_toNat_eq (by rw [e]; simp))
    rw [BitVec.toInt_eq_msb_cond, BitVec.toInt_eq_msb_cond, m1, mt]
    have : (1#w.n : T w).toNat = 1 := by cases w <;> rfl
    rw [this]
    simp only [Bool.false_eq_true, if_false]
    omega
  cases hs : t.msb
  · rw [abs_of_pos (lv_pos_of hs)]; exact key t rt hs
  · obtain ⟨rn, en⟩ := lv_neg_takum rt
    have hm : (-t).msb = false := by rw [(regular_neg (by have := w.n_pos; omega) rt).1, hs]; rfl
    have := key _ rn hm
    rw [← abs_neg, ← en, abs_of_pos (lv_pos_of hm)]; exact this

theorem same_sign_dist {x v : ℚ} (h : x < 0 ↔ v < 0) : |x - v| = abs (|x| - |v|) := by
  by_cases hv : v < 0
  · rw [abs_of_neg hv, abs_of_neg (h.mpr hv), ← abs_neg]; congr 1; ring
  · rw [abs_of_nonneg (not_lt.mp hv), abs_of_nonneg (not_lt.mp fun g => hv (h.mp g))]

theorem sum_error {w : W} (hw : 12 ≤ w.n) {a b t : T w} (ra : Regular a) (rb : Regular b) (h : |lv b| ≤ |lv a|) {v : ℚ} (hv : v = lv a + lv b) (v0 : v ≠ 0)
    (hn : NearestLin v t) (hr : v = lv t ∨ lv (1#w.n : T w) ≤ |v - lv t|) :
    |v - lv t| ≤ |lv b| ∧ ∃ u : T w, u ≠ nar w.n ∧ qv u = v - lv t := by
  have h5 : 5 ≤ w.n := by omega
  obtain ⟨rt, st, hn⟩ := hn
  obtain ⟨r1, m1⟩ := regular_one w
  have p1 := lv_pos_of m1
  have vpos := abs_pos.mpr v0
  -- every magnitude of a takum is at least as far
  have near : ∀ r : T w, Regular r → |v - lv t| ≤ abs (|lv r| - |v|) := by
    intro r rr
    have : ∀ r : T w, Regular r → r.msb = t.msb → |v - lv t| ≤ abs (|lv r| - |v|) := fun r rr mr => by
      have hs : lv r < 0 ↔ v < 0 := by rw [lv_neg_iff, mr]; exact st
      rw [← same_sign_dist hs, abs_sub_comm]
      rcases hn r rr mr _ _ (linVal_lv h5 rt) (linVal_lv h5 rr) with g | g
      · exact g.le
      · exact g.1.le
    by_cases mr : r.msb = t.msb
    · exact this r rr mr
    · obtain ⟨rn, en⟩ := lv_neg_takum rr
      have := this (-r) rn (by
        rw [(regular_neg h5 rr).1]
        revert mr; cases r.msb <;> cases t.msb <;> simp)
      rwa [en, abs_neg] at this
  have hle : |v - lv t| ≤ |lv b| := by
    refine (near a ra).trans ?_
    rw [hv]
    have := abs_abs_sub_abs_le_abs_sub (lv a) (lv a + lv b)
    rwa [sub_add_cancel_left, abs_neg] at this
  refine ⟨hle, ?_⟩
  rcases hr with e | hr
  · exact ⟨0#w.n, zero_ne_nar w, by rw [qv_zero, ← e, sub_self]⟩
  obtain ⟨ka, hka⟩ := mult_ulp hw ra rb h
  obtain ⟨kb, hkb⟩ := mult_ulp hw rb rb le_rfl
  have hvK : v = ((ka + kb : ℤ) : ℚ) * ulp b := by rw [hv]; push_cast; linear_combination hka + hkb
  have hlt : |lv b| ≤ |lv t| := by
    by_contra hc
    push Not at hc
    rcases le_or_gt (|v|) (|lv b|) with g | g
    · exfalso
      rcases le_or_gt (lv (1#w.n : T w)) |v| with g' | g'
      · obtain ⟨s, rs, es⟩ := ulp_takum hw rb g' g hvK
        have := near s rs
        rw [es, sub_self, abs_zero] at this
        linarith
      · have := near _ r1
        rw [abs_of_pos p1, abs_of_pos (by linarith : 0 < lv (1#w.n : T w) - |v|)] at this
        linarith
    · have g1 := near b rb
      have hs : lv t < 0 ↔ v < 0 := by rw [lv_neg_iff]; exact st
      rw [abs_sub_comm, same_sign_dist hs, abs_of_neg (by linarith : |lv t| - |v| < 0), abs_of_neg (by linarith : |lv b| - |v| < 0)] at g1
      linarith
  obtain ⟨kt, hkt⟩ := mult_ulp hw rt rb hlt
  obtain ⟨u, ru, eu⟩ := ulp_takum hw rb hr hle (K := ka + kb - kt) (by rw [hvK, hkt]; push_cast; ring)
  exact ⟨u, ru.2, by rw [qv_regular ru, eu]⟩

theorem sum_nearest_short {w : W} (hw : w = .w16 ∨ w = .w32) (a b : T w) (x y : ℚ) (ha : linVal a = some x) (hb : linVal b = some y) (h : x + y ≠ 0) :
    ∃ t, linAddition w a b = .ok t ∧ NearestLin (x + y) t := by
  rcases hw with rfl | rfl
  · exact (lin16_arith_nearest a b x y ha hb).1 h
  · exact (lin32_sum_nearest a b x y ha hb).1 h

/-- C113: the rounding error of a 16- or 32-bit linear sum is a linear takum, unless it is smaller than every takum. -/
theorem lin_sum_error (w : W) (hw : w = .w16 ∨ w = .w32) (a b : T w) (x y m : ℚ) (ha : linVal a = some x) (hb : linVal b = some y)
    (hm : linVal (1#w.n : T w) = some m) :
    ∃ t s, linAddition w a b = .ok t ∧ linVal t = some s ∧
      (x + y = s ∨ m ≤ |x + y - s| → ∃ u : T w, linVal u = some (x + y - s)) ∧ |x + y - s| ≤ |x| ∧ |x + y - s| ≤ |y| := by
  have hn : 12 ≤ w.n := by rcases hw with rfl | rfl <;> decide
  have an : a ≠ nar w.n := by rintro rfl; simp [linVal] at ha
  have bn : b ≠ nar w.n := by rintro rfl; simp [linVal] at hb
  have zt : ∀ q : ℚ, q = 0 → ∃ u : T w, linVal u = some q := fun q e => ⟨0#w.n, by rw [linVal_qv (zero_ne_nar w), qv_zero, e]⟩
  obtain ⟨r1, -⟩ := regular_one w
  have ha' := ha
  have hb' := hb
  rw [linVal_qv an, Option.some.injEq] at ha
  rw [linVal_qv bn, Option.some.injEq] at hb
  rw [linVal_qv r1.2, Option.some.injEq, qv_regular r1] at hm
  -- a sum that is a takum
  have exact : ∀ t : T w, t ≠ nar w.n → qv t = x + y → ∃ t s, linAddition w a b = .ok t ∧ linVal t = some s ∧
      (x + y = s ∨ m ≤ |x + y - s| → ∃ u : T w, linVal u = some (x + y - s)) ∧ |x + y - s| ≤ |x| ∧ |x + y - s| ≤ |y| := by
    intro t tn et
    refine ⟨t, x + y, ?_, by rw [linVal_qv tn, et], fun _ => zt _ (sub_self _), ?_, ?_⟩
    · rw [linAddition_eq an bn, ha, hb, ← et, rq_qv, linEnc_qv tn]
    · rw [sub_self, abs_zero]; exact abs_nonneg _
    · rw [sub_self, abs_zero]; exact abs_nonneg _
  by_cases v0 : x + y = 0
  · exact exact 0#w.n (zero_ne_nar w) (by rw [qv_zero, v0])
  by_cases x0 : x = 0
  · exact exact b bn (by rw [hb, x0, zero_add])
  by_cases y0 : y = 0
  · exact exact a an (by rw [ha, y0, add_zero])
  have ra : Regular a := ⟨fun e => x0 (by rw [← ha, e, qv_zero]), an⟩
  have rb : Regular b := ⟨fun e => y0 (by rw [← hb, e, qv_zero]), bn⟩
  obtain ⟨t, et, nt⟩ := sum_nearest_short hw a b x y ha' hb' v0
  rw [qv_regular ra] at ha
  rw [qv_regular rb] at hb
  have h5 : 5 ≤ w.n := by omega
  have le : |x + y - lv t| ≤ |x| ∧ |x + y - lv t| ≤ |y| ∧ (x + y = lv t ∨ m ≤ |x + y - lv t| → ∃ u : T w, linVal u = some (x + y - lv t)) := by
    rw [← hm]
    by_cases hd : x + y = lv t ∨ lv (1#w.n : T w) ≤ |x + y - lv t|
    · rcases le_total |y| |x| with g | g
      · obtain ⟨h1, u, un, eu⟩ := sum_error hn ra rb (by rw [ha, hb]; exact g) (by rw [ha, hb]) v0 nt hd
        rw [hb] at h1
        exact ⟨h1.trans g, h1, fun _ => ⟨u, by rw [linVal_qv un, eu]⟩⟩
      · obtain ⟨h1, u, un, eu⟩ := sum_error hn rb ra (by rw [ha, hb]; exact g) (by rw [ha, hb, add_comm]) v0 nt hd
        rw [ha] at h1
        exact ⟨h1, h1.trans g, fun _ => ⟨u, by rw [linVal_qv un, eu]⟩⟩
    · refine ⟨?_, ?_, fun h => absurd h hd⟩
      · push Not at hd
        have := lv_min ra; rw [ha] at this; exact hd.2.le.trans this
      · push Not at hd
        have := lv_min rb; rw [hb] at this; exact hd.2.le.trans this
  exact ⟨t, lv t, et, linVal_lv h5 nt.1, le.2.2, le.1, le.2.1⟩

/-- `1025/512 + 1027/8192`: the error is `3/8192`. -/
example : linVal (0x4801#16 : T .w16) = some (1025 / 512) ∧ linVal (0x3003#16 : T .w16) = some (1027 / 8192) ∧
    linAddition .w16 0x4801#16 0x3003#16 = .ok 0x4841#16 ∧ linVal (0x4841#16 : T .w16) = some (1089 / 512) ∧
    linVal (0x2380#16 : T .w16) = some (1025 / 512 + 1027 / 8192 - 1089 / 512) := by decide +kernel

/-- 64 bits are left out of C113 because the sum is not always the nearest takum there: `1 + 2^-59` and `2^-60 - 2^-115`
are rounded up, and the error `-(2^-60 + 2^-115)` is not a takum. -/
theorem lin64_sum_error_refuted :
    linVal (0x4000000000000001#64 : T .w64) = some (1 + 1 / 2 ^ 59) ∧ linVal (0x10bfffffffffffff#64 : T .w64) = some (1 / 2 ^ 60 - 1 / 2 ^ 115) ∧
    linAddition .w64 0x4000000000000001#64 0x10bfffffffffffff#64 = .ok 0x4000000000000002#64 ∧
    linVal (0x4000000000000002#64 : T .w64) = some (1 + 1 / 2 ^ 58) ∧
    ∀ u : T .w64, linVal u ≠ some ((1 + 1 / 2 ^ 59) + (1 / 2 ^ 60 - 1 / 2 ^ 115) - (1 + 1 / 2 ^ 58)) := by
  refine ⟨by decide +kernel, by decide +kernel, by decide +kernel, by decide +kernel, fun u hu => ?_⟩
  have un : u ≠ nar 64 := by rintro rfl; simp [linVal] at hu
  rw [linVal_qv (w := .w64) un, Option.some.injEq] at hu
  have nn : -u ≠ nar 64 := neg_ne_nar (w := .w64) un
  have e := qv_neg (w := .w64) un
  rw [hu] at e
  have q1 : qv (0x10c0000000000000#64 : T .w64) = 1 / 2 ^ 60 := by decide +kernel
  have q2 : qv (0x10c0000000000001#64 : T .w64) = 1 / 2 ^ 60 + 1 / 2 ^ 114 := by decide +kernel
  have c1 := (qv_le_iff (w := .w64) (a := -u) (b := 0x10c0000000000000#64) nn (by decide)).not.mp (by rw [e, q1]; norm_num)
  have c2 := (qv_le_iff (w := .w64) (a := 0x10c0000000000001#64) (b := -u) (by decide) nn).not.mp (by rw [e, q2]; norm_num)
  have i1 : (0x10c0000000000000#64 : T .w64).toInt = 0x10c0000000000000 := by decide
  have i2 : (0x10c0000000000001#64 : T .w64).toInt = 0x10c0000000000001 := by decide
  rw [i1] at c1
  rw [i2] at c2
  omega

/-- C113: and if one number is at most a quarter of the other, two subtractions compute it (Dekker's fast two-sum). -/
theorem lin_fast_two_sum (w : W) (hw : w = .w16 ∨ w = .w32) (a b : T w) (x y m : ℚ) (ha : linVal a = some x) (hb : linVal b = some y)
    (hm : linVal (1#w.n : T w) = some m) (hq : 4 * |y| ≤ |x|) :
    ∃ t s, linAddition w a b = .ok t ∧ linVal t = some s ∧
      ((x = s ∨ m ≤ |s - x|) → (x + y = s ∨ m ≤ |x + y - s|) →
        ∃ z u, linSubtraction w t a = .ok z ∧ linVal z = some (s - x) ∧
          linSubtraction w b z = .ok u ∧ linVal u = some (x + y - s)) := by
  obtain ⟨t, s, et, hs, hu, -, hy⟩ := lin_sum_error w hw a b x y m ha hb hm
  refine ⟨t, s, et, hs, fun h1 h2 => ?_⟩
  obtain ⟨u, hu⟩ := hu h2
  have b1 := abs_le.mp hy
  have bx : x / 4 ≤ |x| / 4 ∧ -(x / 4) ≤ |x| / 4 := ⟨by linarith [le_abs_self x], by linarith [neg_abs_le x]⟩
  have hy2 := abs_le.mp (le_refl |y|)
  obtain ⟨z, ez, hz⟩ := lin_sterbenz w t a s x m hs ha hm (by
      rcases le_total 0 x with g | g
      · rw [abs_of_nonneg g] at hq; exact mul_nonneg (by linarith) g
      · rw [abs_of_nonpos g] at hq; exact mul_nonneg_of_nonpos_of_nonpos (by linarith) g) (by
      rcases le_total 0 x with g | g
      · rw [abs_of_nonneg g] at hq ⊢; rw [abs_of_nonneg (by linarith : 0 ≤ s)]; linarith
      · rw [abs_of_nonpos g] at hq ⊢; rw [abs_of_nonpos (by linarith : s ≤ 0)]; linarith) (by
      rcases le_total 0 x with g | g
      · rw [abs_of_nonneg g] at hq ⊢; rw [abs_of_nonneg (by linarith : 0 ≤ s)]; linarith
      · rw [abs_of_nonpos g] at hq ⊢; rw [abs_of_nonpos (by linarith : s ≤ 0)]; linarith) (by
      rcases h1 with e | e
      · exact Or.inl e.symm
      · exact Or.inr e)
  refine ⟨z, u, ez, hz, ?_, hu⟩
  have bn : b ≠ nar w.n := by rintro rfl; simp [linVal] at hb
  have zn : z ≠ nar w.n := by rintro rfl; simp [linVal] at hz
  have un : u ≠ nar w.n := by rintro rfl; simp [linVal] at hu
  rw [linVal_qv bn, Option.some.injEq] at hb
  rw [linVal_qv zn, Option.some.injEq] at hz
  rw [linVal_qv un, Option.some.injEq] at hu
  rw [linSubtraction_eq bn zn, hb, hz, show y - (s - x) = x + y - s by ring, ← hu, rq_qv, linEnc_qv un]

example : linVal (0x4801#16 : T .w16) = some (1025 / 512) ∧ linVal (0x3003#16 : T .w16) = some (1027 / 8192) ∧
    4 * |(1027 / 8192 : ℚ)| ≤ |1025 / 512| ∧ linSubtraction .w16 0x4841#16 0x4801#16 = .ok 0x3000#16 ∧
    linSubtraction .w16 0x3003#16 0x3000#16 = .ok 0x2380#16 := by decide +kernel

/-- Not for any two numbers, as in formats with a constant number of bits: the double of `2 - 2^-11` is rounded to 4, the error is
`-2^-10`, and the two subtractions give `-2^-11`. -/
example : linVal (0x47ff#16 : T .w16) = some (2 - 1 / 2 ^ 11) ∧ linAddition .w16 0x47ff#16 0x47ff#16 = .ok 0x4c00#16 ∧
    linVal (0x4c00#16 : T .w16) = some 4 ∧ linSubtraction .w16 0x4c00#16 0x47ff#16 = .ok 0x4800#16 ∧
    linSubtraction .w16 0x47ff#16 0x4800#16 = .ok 0xdc00#16 ∧ linVal (0xdc00#16 : T .w16) = some (-1 / 2 ^ 11) := by decide +kernel

end Takum
