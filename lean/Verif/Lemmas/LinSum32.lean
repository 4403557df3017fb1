import Verif.Props.LinNearest
import Verif.Props.LinFloat

/-! # Lemmas for the correct rounding of 32-bit linear sums -/

namespace Takum
open Spec

theorem reg_up : ∀ d < 16, ∀ R < 8, (2 : ℤ) ^ R - 1 < bias d + 2 ^ rr d → R ≤ rr d := by decide
theorem reg_down : ∀ d < 16, ∀ R < 8, bias d < 1 - (2 : ℤ) ^ R → R ≤ rr d := by decide

/-- Away from position 0 the positions of the takums are multiples of a higher power of two. -/
theorem psi_fine {n : ℕ} (hn : 12 ≤ n) (t : BitVec n) {R : ℕ} (hR : R < 8) (h : (2 : ℚ) ^ R - 1 ≤ |psi (pos t)|) :
    ∃ j : ℤ, psi (pos t) * 2 ^ (n - 5) = 2 ^ R * j := by
  obtain ⟨d, hd, h1, h2⟩ := exists_piece (pos_nonneg t) (pos_lt (by omega) t)
  have e := psi_eq_piece h1 h2
  have pd : (0 : ℚ) < 2 ^ rr d := by positivity
  have l1 : (bias d : ℚ) ≤ psi (pos t) := by rw [e]; unfold piece; nlinarith
  have l2 : psi (pos t) < (bias d : ℚ) + 2 ^ rr d := by rw [e]; unfold piece; nlinarith
  have key : ∀ S : ℕ, R ≤ S → ∃ r : ℕ, 2 ^ S = 2 ^ R * r := fun S hS => ⟨2 ^ (S - R), by rw [← pow_add]; congr 1; omega⟩
  obtain ⟨c, hc⟩ := key (n - 5) (by omega)
  have hc' : (2 : ℚ) ^ (n - 5) = 2 ^ R * c := by exact_mod_cast hc
  by_cases hr : R ≤ rr d
  · obtain ⟨r, hr'⟩ := key (rr d) hr
    have hr2 : (2 : ℚ) ^ rr d = 2 ^ R * r := by exact_mod_cast hr'
    refine ⟨bias d * c + r * (low t - d * 2 ^ (n - 5)), ?_⟩
    have : pos t * 2 ^ (n - 5) = low t := by unfold pos; field_simp; push_cast; rfl
    rw [e]; unfold piece; rw [hr2]
    push_cast
    linear_combination (bias d : ℚ) * hc' + (2 : ℚ) ^ R * r * this
  · have hb : psi (pos t) = bias d := by
      rcases le_abs.mp h with h' | h'
      · exfalso
        apply hr
        apply reg_up d hd R hR
        have : ((2 ^ R - 1 : ℤ) : ℚ) < ((bias d + 2 ^ rr d : ℤ) : ℚ) := by push_cast; linarith
        exact_mod_cast this
      · apply le_antisymm _ l1
        by_contra hlt
        apply hr
        apply reg_down d hd R hR
        have : ((bias d : ℤ) : ℚ) < ((1 - 2 ^ R : ℤ) : ℚ) := by push_cast; linarith
        exact_mod_cast this
    exact ⟨bias d * c, by rw [hb]; push_cast; linear_combination (bias d : ℚ) * hc'⟩

/-- `[c, c + 1]` lies where the regime is at least `R`. -/
def Reg (R : ℕ) (c : ℤ) : Prop := (2 : ℤ) ^ R - 1 ≤ c ∨ c + 1 ≤ 1 - (2 : ℤ) ^ R

theorem ell_fine_reg {n : ℕ} (hn : 12 ≤ n) (t : BitVec n) {R : ℕ} (hR : R < 8) {c : ℤ} (hc : Reg R c)
    (h1 : (c : ℚ) ≤ ell t) (h2 : ell t ≤ c + 1) : ∃ j : ℤ, ell t * 2 ^ (n - 5) = 2 ^ R * j := by
  have ha : (2 : ℚ) ^ R - 1 ≤ |ell t| := by
    rw [le_abs]
    rcases hc with h | h
    · left
      have : ((2 ^ R - 1 : ℤ) : ℚ) ≤ (c : ℚ) := by exact_mod_cast h
      push_cast at this; linarith
    · right
      have : ((c + 1 : ℤ) : ℚ) ≤ ((1 - 2 ^ R : ℤ) : ℚ) := by exact_mod_cast h
      push_cast at this; linarith
  rw [ell_sg (by omega)] at ha ⊢
  rw [sg_abs] at ha
  obtain ⟨j, hj⟩ := psi_fine hn t hR ha
  cases t.msb
  · exact ⟨j, by simpa [sg] using hj⟩
  · exact ⟨-j, by simp only [sg, if_true]; push_cast; linear_combination -hj⟩

/-- The values between two powers of two are multiples of a power of two. -/
theorem lam_multiple {n : ℕ} (hn : 12 ≤ n) (t : BitVec n) {R : ℕ} (hR : R < 8) {c : ℤ} (hc : Reg R c)
    (h1 : (2 : ℚ) ^ c ≤ lam (ell t)) (h2 : lam (ell t) ≤ (2 : ℚ) ^ (c + 1)) :
    ∃ k : ℤ, lam (ell t) = k * (2 : ℚ) ^ (c - (n - 5 : ℕ) + R) := by
  have l1 : ∀ j : ℤ, lam (j : ℚ) = (2 : ℚ) ^ j := by intro j; unfold lam; simp
  have p1 : (c : ℚ) ≤ ell t := by rw [← lam_strictMono.le_iff_le, l1]; exact h1
  have p2 : ell t ≤ c + 1 := by
    rw [← lam_strictMono.le_iff_le, show (c : ℚ) + 1 = ((c + 1 : ℤ) : ℚ) by push_cast; ring, l1]; exact h2
  obtain ⟨j, hj⟩ := ell_fine_reg hn t hR hc p1 p2
  obtain ⟨m, hm⟩ : ∃ m : ℕ, n - 5 = R + m := ⟨n - 5 - R, by omega⟩
  refine ⟨2 ^ m * (1 - c) + j, ?_⟩
  rw [lam_affine p1 p2, hm]
  rw [hm, pow_add] at hj
  have e : (2 : ℚ) ^ (c - ((R + m : ℕ) : ℤ) + R) * 2 ^ m = (2 : ℚ) ^ c := by
    rw [← zpow_natCast (2 : ℚ) m, ← zpow_add₀ (by norm_num)]; congr 1; push_cast; ring
  rw [← e]
  generalize (2 : ℚ) ^ (c - ((R + m : ℕ) : ℤ) + R) = E
  have hR0 : (2 : ℚ) ^ R ≠ 0 := by positivity
  have hj' : ell t * 2 ^ m = j := by
    apply mul_left_cancel₀ hR0; linear_combination hj
  push_cast
  linear_combination E * hj'

theorem multiple_gap {x y S : ℚ} (hS : 0 < S) {i j : ℤ} (hx : x = i * S) (hy : y = j * S) (h : x < y) : x + S ≤ y := by
  have : (i : ℚ) < j := by rw [hx, hy] at h; exact lt_of_mul_lt_mul_right h hS.le
  have : i + 1 ≤ j := by exact_mod_cast this
  have : (i : ℚ) + 1 ≤ j := by exact_mod_cast this
  rw [hx, hy]; nlinarith

theorem zpow_multiple {c d : ℤ} (h : d ≤ c) : ∃ k : ℤ, (2 : ℚ) ^ c = k * (2 : ℚ) ^ d := by
  obtain ⟨m, hm⟩ := Int.eq_ofNat_of_zero_le (sub_nonneg.mpr h)
  refine ⟨2 ^ m, ?_⟩
  rw [show c = m + d by omega, zpow_add₀ (by norm_num), zpow_natCast]; push_cast; ring

/-- A takum within a quarter of the local spacing is the nearest. -/
theorem close_strict {n : ℕ} (hn : 12 ≤ n) {R : ℕ} (hR : R < 8) {c : ℤ} (hc : Reg R c) {a b : BitVec n}
    (hs : b.msb = a.msb) (hne : b ≠ a)
    (h1 : (2 : ℚ) ^ c ≤ lam (ell a)) (h2 : lam (ell a) ≤ (2 : ℚ) ^ (c + 1)) {p : ℚ} (p1 : (2 : ℚ) ^ c ≤ p)
    (p2 : p ≤ (2 : ℚ) ^ (c + 1)) (hp : |p - lam (ell a)| * 4 ≤ (2 : ℚ) ^ (c - (n - 5 : ℕ) + R)) :
    |lam (ell a) - p| < |lam (ell b) - p| := by
  set S : ℚ := (2 : ℚ) ^ (c - (n - 5 : ℕ) + R) with hS
  have S0 : 0 < S := zpow_pos (by norm_num) _
  obtain ⟨i, hi⟩ := lam_multiple hn a hR hc h1 h2
  obtain ⟨i1, hi1⟩ := zpow_multiple (c := c) (d := c - (n - 5 : ℕ) + R) (by omega)
  obtain ⟨i2, hi2⟩ := zpow_multiple (c := c + 1) (d := c - (n - 5 : ℕ) + R) (by omega)
  rw [← hS] at hi hi1 hi2
  have hab : lam (ell b) ≠ lam (ell a) := fun e => hne (ell_inj (by omega) hs (lam_strictMono.injective e))
  have hp' := abs_le.mp (show |p - lam (ell a)| ≤ S / 4 by linarith)
  rw [abs_sub_comm (lam (ell a)) p]
  rcases lt_or_ge (lam (ell b)) ((2 : ℚ) ^ c) with hb | hb
  · rw [abs_of_neg (show lam (ell b) - p < 0 by linarith)]
    rcases le_or_gt (lam (ell a)) p with h | h
    · rw [abs_of_nonneg (by linarith)]; linarith
    · have := multiple_gap S0 hi1 hi (by linarith)
      rw [abs_of_neg (by linarith)]; linarith
  rcases lt_or_ge ((2 : ℚ) ^ (c + 1)) (lam (ell b)) with hb' | hb'
  · rw [abs_of_pos (show 0 < lam (ell b) - p by linarith)]
    rcases le_or_gt p (lam (ell a)) with h | h
    · rw [abs_of_nonpos (by linarith)]; linarith
    · have := multiple_gap S0 hi hi2 (by linarith)
      rw [abs_of_pos (by linarith)]; linarith
  obtain ⟨k, hk⟩ := lam_multiple hn b hR hc hb hb'
  rw [← hS] at hk
  have h4 : |p - lam (ell a)| ≤ S / 4 := by linarith
  refine lt_of_le_of_lt h4 ?_
  rcases lt_or_gt_of_ne hab with h | h
  · have := multiple_gap S0 hk hi h
    rw [abs_of_neg (by linarith)]; linarith
  · have := multiple_gap S0 hi hk h
    rw [abs_of_pos (by linarith)]; linarith

/-- The takum that is closer than a quarter of the local spacing lies in the same interval. -/
theorem close_inside {n : ℕ} (hn : 12 ≤ n) {R R' : ℕ} (hR : R' < 8) (hRR : R ≤ R' + 1) (hRn : R ≤ 7) {c : ℤ} (hc1 : Reg R' (c - 1))
    (hc2 : Reg R' (c + 1)) {a : BitVec n} {v : ℚ} (v1 : (2 : ℚ) ^ c ≤ v) (v2 : v < (2 : ℚ) ^ (c + 1))
    (hv : |v - lam (ell a)| < (2 : ℚ) ^ (c - (n - 5 : ℕ) + R - 2)) :
    (2 : ℚ) ^ c ≤ lam (ell a) ∧ lam (ell a) ≤ (2 : ℚ) ^ (c + 1) := by
  set D : ℚ := (2 : ℚ) ^ (c - (n - 5 : ℕ) + R - 2) with hD
  have hm : ∀ {d e : ℤ}, d ≤ e → (2 : ℚ) ^ d ≤ (2 : ℚ) ^ e := fun h => zpow_le_zpow_right₀ (by norm_num) h
  obtain ⟨w1, w2⟩ := abs_lt.mp hv
  constructor
  · by_contra hlt
    rw [not_le] at hlt
    rcases lt_or_ge (lam (ell a)) ((2 : ℚ) ^ (c - 1)) with h | h
    · have e : (2 : ℚ) ^ c = 2 * (2 : ℚ) ^ (c - 1) := by rw [← zpow_one_add₀ (by norm_num)]; congr 1; ring
      have : D ≤ (2 : ℚ) ^ (c - 1) := hm (by omega)
      linarith
    · obtain ⟨k, hk⟩ := lam_multiple hn a hR hc1 h (by rw [sub_add_cancel]; exact hlt.le)
      obtain ⟨i, hi⟩ := zpow_multiple (c := c) (d := c - 1 - (n - 5 : ℕ) + R') (by omega)
      have := multiple_gap (zpow_pos (by norm_num) _) hk hi hlt
      have : D ≤ (2 : ℚ) ^ (c - 1 - (n - 5 : ℕ) + R') := hm (by omega)
      linarith
  · by_contra hlt
    rw [not_le] at hlt
    rcases lt_or_ge ((2 : ℚ) ^ (c + 1 + 1)) (lam (ell a)) with h | h
    · have e : (2 : ℚ) ^ (c + 1 + 1) = 2 * (2 : ℚ) ^ (c + 1) := by rw [← zpow_one_add₀ (by norm_num)]; congr 1; ring
      have : D ≤ (2 : ℚ) ^ (c + 1) := hm (by omega)
      linarith
    · obtain ⟨k, hk⟩ := lam_multiple hn a hR hc2 hlt.le h
      obtain ⟨i, hi⟩ := zpow_multiple (c := c + 1) (d := c + 1 - (n - 5 : ℕ) + R') (by omega)
      have := multiple_gap (zpow_pos (by norm_num) _) hi hk hlt
      have : D ≤ (2 : ℚ) ^ (c + 1 - (n - 5 : ℕ) + R') := hm (by omega)
      linarith

theorem reg_exists : ∀ c : ℤ, -255 ≤ c → c < 256 → ∃ R < 8, Reg R c ∧ (R = 7 ∨ -(2 : ℤ) ^ (R + 1) < c) := by
  intro c h1 h2
  unfold Reg
  by_cases a0 : c = 0 ∨ c = -1
  · exact ⟨0, by omega, by omega, by omega⟩
  by_cases a1 : -4 < c ∧ c < 3
  · exact ⟨1, by omega, by omega, by omega⟩
  by_cases a2 : -8 < c ∧ c < 7
  · exact ⟨2, by omega, by omega, by omega⟩
  by_cases a3 : -16 < c ∧ c < 15
  · exact ⟨3, by omega, by omega, by omega⟩
  by_cases a4 : -32 < c ∧ c < 31
  · exact ⟨4, by omega, by omega, by omega⟩
  by_cases a5 : -64 < c ∧ c < 63
  · exact ⟨5, by omega, by omega, by omega⟩
  by_cases a6 : -128 < c ∧ c < 127
  · exact ⟨6, by omega, by omega, by omega⟩
  exact ⟨7, by omega, by omega, by omega⟩

/-- The significand of a linear takum, with the regime taken into account. -/
theorem lv_sig_reg {w : W} (hw : 12 ≤ w.n) (t : T w) : ∃ R : ℕ, R < 8 ∧ (R = 7 ∨ -(2 : ℤ) ^ (R + 1) < ⌊ell t⌋) ∧
    ∃ k : ℤ, lv t = k * (2 : ℚ) ^ (⌊ell t⌋ - (w.n - 5 : ℕ) + R) := by
  obtain ⟨f1, f2⟩ := floor_ell t
  obtain ⟨R, hR, hr, hb⟩ := reg_exists _ f1 f2
  obtain ⟨b1, b2⟩ := lam_bounds (ell t)
  obtain ⟨k, hk⟩ := lam_multiple hw t hR hr b1 b2.le
  refine ⟨R, hR, hb, ?_⟩
  unfold lv
  rw [hk]
  cases t.msb
  · exact ⟨k, by simp [sg]⟩
  · exact ⟨-k, by simp [sg]⟩

theorem nearestLin_close {n : ℕ} (hn : 12 ≤ n) {R : ℕ} (hR : R < 8) {c : ℤ} (hc : Reg R c) {a : BitVec n} (ha : Regular a)
    (h1 : (2 : ℚ) ^ c ≤ |lv a|) (h2 : |lv a| ≤ (2 : ℚ) ^ (c + 1)) {v : ℚ} (hv : v < 0 ↔ lv a < 0) (v1 : (2 : ℚ) ^ c ≤ |v|)
    (v2 : |v| ≤ (2 : ℚ) ^ (c + 1)) (hd : |(|v| - |lv a|)| * 4 ≤ (2 : ℚ) ^ (c - (n - 5 : ℕ) + R)) :
    Regular a ∧ (a.msb = true ↔ v < 0) ∧ ∀ b : BitVec n, Regular b → b.msb = a.msb → b ≠ a → |lv a - v| < |lv b - v| := by
  refine ⟨ha, by rw [hv, lv_neg_iff], fun b rb sb hne => ?_⟩
  rw [lv_abs] at h1 h2 hd
  have h := close_strict hn hR hc sb hne h1 h2 v1 v2 hd
  have vx : v = sg a.msb * |v| := by
    have : a.msb = decide (v < 0) := by rw [Bool.eq_iff_iff, decide_eq_true_iff, hv, lv_neg_iff]
    rw [this, sg_decide_abs]
  have key : ∀ y, |sg a.msb * y - v| = |y - (|v|)| := by
    intro y
    conv_lhs => rw [vx]
    rw [← mul_sub, sg_abs]
  unfold lv
  rw [sb, key, key]; exact h

theorem nearestLin_of_strict {w : W} {a : T w} {v : ℚ}
    (h : Regular a ∧ (a.msb = true ↔ v < 0) ∧ ∀ b : T w, Regular b → b.msb = a.msb → b ≠ a → |lv a - v| < |lv b - v|) :
    NearestLin v a := by
  have h5 : 5 ≤ w.n := by have := w.n_pos; omega
  refine ⟨h.1, h.2.1, fun t' r' s' x y hx hy => ?_⟩
  rw [linVal_lv h5 h.1, Option.some.injEq] at hx
  rw [linVal_lv h5 r', Option.some.injEq] at hy
  subst hx hy
  by_cases hne : t' = a
  · right; rw [hne]; exact ⟨rfl, Or.inl rfl⟩
  · left; exact h.2.2 t' r' s' hne

theorem nearestLin_unique {w : W} {a t : T w} {v : ℚ}
    (h : Regular a ∧ (a.msb = true ↔ v < 0) ∧ ∀ b : T w, Regular b → b.msb = a.msb → b ≠ a → |lv a - v| < |lv b - v|)
    (ht : NearestLin v t) : t = a := by
  have h5 : 5 ≤ w.n := by have := w.n_pos; omega
  obtain ⟨rt, st, hm⟩ := ht
  by_contra hne
  have hs : t.msb = a.msb := by rw [Bool.eq_iff_iff, st, h.2.1]
  have h1 := h.2.2 t rt hs hne
  rcases hm a h.1 hs.symm _ _ (linVal_lv h5 rt) (linVal_lv h5 h.1) with h2 | ⟨h2, -⟩ <;> linarith

/-- Sums of two 32-bit takums, the first summand not being the smaller one. -/
theorem sum32 {a b : T .w32} (ha : Regular a) (hle : |lv b| ≤ |lv a|) (h0 : lv a + lv b ≠ 0) :
    NearestLin (lv a + lv b) (linEnc .w32 (b64.rq (lv a + lv b))) := by
  have hm : ∀ {d e : ℤ}, d ≤ e → (2 : ℚ) ^ d ≤ (2 : ℚ) ^ e := fun h => zpow_le_zpow_right₀ (by norm_num) h
  have hz : ∀ d : ℤ, (0 : ℚ) < (2 : ℚ) ^ d := fun d => zpow_pos (by norm_num) _
  obtain ⟨ra, hra, qa, ka, hka⟩ := lv_sig_reg (w := .w32) (by decide) a
  obtain ⟨rb, hrb, qb, kb, hkb⟩ := lv_sig_reg (w := .w32) (by decide) b
  obtain ⟨fa1, fa2⟩ := floor_ell a
  obtain ⟨fb1, fb2⟩ := floor_ell b
  obtain ⟨la1, la2⟩ := lam_bounds (ell a)
  obtain ⟨lb1, lb2⟩ := lam_bounds (ell b)
  rw [← lv_abs] at la1 la2 lb1 lb2
  have hva : |lv a + lv b| ≤ 2 * |lv a| := by have := abs_add_le (lv a) (lv b); linarith
  obtain ⟨v1, v2⟩ := lam_bounds (lamInv (|lv a + lv b|))
  rw [lam_lamInv (abs_pos.mpr h0)] at v1 v2
  generalize hc : ⌊lamInv (|lv a + lv b|)⌋ = c at v1 v2
  generalize hca : ⌊ell a⌋ = ca at *
  generalize hcb : ⌊ell b⌋ = cb at *
  rw [show (W.n .w32 - 5 : ℕ) = 27 from rfl] at hka hkb
  have cle : c ≤ ca + 1 := by
    by_contra hgt
    have := hm (show ca + 1 + 1 ≤ c by omega)
    rw [zpow_add_one₀ (by norm_num) (ca + 1)] at this
    linarith
  set v := lv a + lv b with hv
  by_cases hin : b64.In v
  · obtain ⟨t, e, hn⟩ := lin_from_nearest .f64 .w32 (Or.inr rfl) (Or.inl rfl) v h0 hin
    have e' := linFrom_enc (w := .w32) (Fl.Is.num h0) hin
    rw [show W.src .w32 = .f64 from rfl, e] at e'
    rw [b64.rq_of_rep hin.1, ← Except.ok.inj e']; exact hn
  -- the sum is not exact
  have exact : ∀ (m k : ℤ), -400 ≤ m → v = k * (2 : ℚ) ^ m → m + 53 ≤ c := by
    intro m k hm4 hk
    by_contra hlt
    apply hin
    refine ⟨⟨k, m, hk, ?_, le_trans (by decide) hm4⟩, ?_⟩
    · have h1 : |(k : ℚ)| * (2 : ℚ) ^ m < (2 : ℚ) ^ (53 : ℤ) * (2 : ℚ) ^ m := by
        rw [← abs_of_pos (hz m), ← abs_mul, ← hk, abs_of_pos (hz m), ← zpow_add₀ (by norm_num)]
        exact lt_of_lt_of_le v2 (hm (by omega))
      have h2 := lt_of_mul_lt_mul_right h1 (hz m).le
      have h3 : ((|k| : ℤ) : ℚ) < ((2 ^ 53 : ℤ) : ℚ) := by rw [Int.cast_abs]; exact lt_of_lt_of_le h2 (by norm_num)
      exact_mod_cast h3
    · exact lt_of_lt_of_le v2 (hm (show c + 1 ≤ 1024 by omega))
  have hgap : cb - 27 + rb + 53 ≤ c := by
    rcases le_total (cb - 27 + rb) (ca - 27 + ra) with h | h
    · obtain ⟨i, hi⟩ := zpow_multiple h
      apply exact (cb - 27 + rb) (ka * i + kb) (by omega)
      rw [hv, hka, hkb]; push_cast; rw [hi]; push_cast; ring
    · obtain ⟨i, hi⟩ := zpow_multiple h
      have := exact (ca - 27 + ra) (ka + kb * i) (by omega) (by
        rw [hv, hka, hkb]; push_cast; rw [hi]; push_cast; ring)
      omega
  obtain ⟨R, hR, hRb, hReg, hReg1, hReg2⟩ : ∃ R : ℕ, R ≤ 4 ∧ 4 ≤ rb + R ∧ Reg R c ∧ Reg (R - 1) (c - 1) ∧ Reg (R - 1) (c + 1) := by
    unfold Reg
    rcases (show rb = 0 ∨ rb = 1 ∨ rb = 2 ∨ rb = 3 ∨ 4 ≤ rb by omega) with rfl | rfl | rfl | rfl | h
    · exact ⟨4, by omega, by omega, by omega, by omega, by omega⟩
    · exact ⟨3, by omega, by omega, by omega, by omega, by omega⟩
    · exact ⟨2, by omega, by omega, by omega, by omega, by omega⟩
    · exact ⟨1, by omega, by omega, by omega, by omega, by omega⟩
    · exact ⟨0, by omega, by omega, by omega, by omega, by omega⟩
  set D : ℚ := (2 : ℚ) ^ (c - 27 + R - 2) with hD
  have D0 : 0 < D := hz _
  have hb : |lv b| < D := lt_of_lt_of_le lb2 (hm (by omega))
  have h7 : |(|v| - |lv a|)| < D := by
    have : |(|v| - |lv a|)| ≤ |v - lv a| := abs_abs_sub_abs_le _ _
    rw [hv, add_sub_cancel_left] at this; linarith
  obtain ⟨i1, i2⟩ := close_inside (n := 32) (R := R) (R' := R - 1) (a := a) (by decide) (by omega) (by omega) (by omega) hReg1 hReg2 v1 v2
    (by rw [← lv_abs]; exact h7)
  rw [← lv_abs] at i1 i2
  have hDS : D * 4 = (2 : ℚ) ^ (c - (32 - 5 : ℕ) + R) := by
    rw [hD, show (4 : ℚ) = (2 : ℚ) ^ (2 : ℤ) by norm_num, ← zpow_add₀ (by norm_num)]; congr 1; push_cast; ring
  have hDc : D ≤ (2 : ℚ) ^ (c - 1) := hm (by omega)
  have hcc : (2 : ℚ) ^ c = 2 * (2 : ℚ) ^ (c - 1) := by rw [← zpow_one_add₀ (by norm_num)]; congr 1; ring
  have hsv : v < 0 ↔ lv a < 0 := by
    have hbb := abs_lt.mp hb
    rcases lt_or_gt_of_ne (lv_ne a) with hn | hp
    · rw [abs_of_neg hn] at i1
      exact iff_of_true (by rw [hv]; linarith [hz (c - 1)]) hn
    · rw [abs_of_pos hp] at i1
      exact iff_of_false (by rw [hv]; linarith [hz (c - 1)]) (not_lt.mpr hp.le)
  have near := nearestLin_close (n := 32) (by decide) (by omega) hReg ha i1 i2 hsv v1 v2.le (by rw [← hDS]; linarith)
  -- the rounded sum
  obtain ⟨k, hk⟩ := lam_multiple (n := 32) (by decide) a (by omega) hReg (by rw [← lv_abs]; exact i1) (by rw [← lv_abs]; exact i2)
  rw [← lv_abs, ← hDS] at hk
  have rep : ∀ s : ℤ, s = 1 ∨ s = -1 → b64.Rep (|lv a| + s * D) := by
    intro s hs
    refine ⟨4 * k + s, c - 27 + R - 2, ?_, ?_, ?_⟩
    · rw [hk, ← hD]; push_cast; ring
    · have hq : |(4 * k + s : ℚ)| * D < (2 : ℚ) ^ (53 : ℤ) * D := by
        rw [← abs_of_pos D0, ← abs_mul, abs_of_pos D0]
        have e1 : (4 * k + s : ℚ) * D = |lv a| + s * D := by rw [hk]; ring
        have e2 : |(s : ℚ) * D| = D := by rcases hs with rfl | rfl <;> simp [D0.le]
        rw [e1, hD, ← zpow_add₀ (by norm_num), ← hD]
        have := abs_add_le (|lv a|) (s * D)
        rw [abs_abs, e2] at this
        have e3 : (2 : ℚ) ^ (c + 2) = 4 * (2 : ℚ) ^ c := by rw [zpow_add₀ (by norm_num)]; norm_num; ring
        have e4 : (2 : ℚ) ^ (c + 1) = 2 * (2 : ℚ) ^ c := by rw [zpow_add_one₀ (by norm_num)]; ring
        have : (2 : ℚ) ^ (c + 2) ≤ (2 : ℚ) ^ (53 + (c - 27 + R - 2)) := hm (by omega)
        linarith [hz c, hz (c - 1)]
      have h2 := lt_of_mul_lt_mul_right hq D0.le
      have h3 : ((|4 * k + s| : ℤ) : ℚ) < ((2 ^ 53 : ℤ) : ℚ) := by
        push_cast; exact lt_of_lt_of_le h2 (by norm_num)
      exact_mod_cast h3
    · exact le_trans (show b64.emin ≤ -400 by decide) (by omega)
  have h7' := abs_lt.mp h7
  have hp : 1 ≤ b64.prec := by decide
  have r1 := b64.le_rq hp (rep (-1) (Or.inr rfl)) (show |lv a| + ((-1 : ℤ) : ℚ) * D ≤ |v| by push_cast; linarith)
  have r2 := b64.rq_le hp (rep 1 (Or.inl rfl)) (show |v| ≤ |lv a| + ((1 : ℤ) : ℚ) * D by push_cast; linarith)
  have r3 := b64.le_rq hp (Fmt.Rep.zpow hp (show b64.emin ≤ c from le_trans (show b64.emin ≤ -400 by decide) (by omega))) v1
  have r4 := b64.rq_le hp (Fmt.Rep.zpow hp (show b64.emin ≤ c + 1 from le_trans (show b64.emin ≤ -400 by decide) (by omega))) v2.le
  rw [b64.abs_rq] at r1 r2 r3 r4
  push_cast at r1 r2
  have hrn : b64.rq v ≠ 0 := abs_pos.mp (lt_of_lt_of_le (hz c) r3)
  have hrs : b64.rq v < 0 ↔ lv a < 0 := by
    rw [← hsv]
    constructor
    · intro h; by_contra h'; exact absurd (b64.rq_nonneg (not_lt.mp h')) (not_le.mpr h)
    · intro h; exact lt_of_le_of_ne (rq_nonpos' b64 h.le) hrn
  have hrin : b64.In (b64.rq v) := ⟨b64.rq_rep hp v, lt_of_le_of_lt r4 (zpow_lt_zpow_right₀ (by norm_num) (show c + 1 < 1024 by omega))⟩
  have near' := nearestLin_close (n := 32) (by decide) (by omega) hReg ha i1 i2 hrs r3 r4 (by
    rw [← hDS]
    have : |(|b64.rq v| - |lv a|)| ≤ D := abs_le.mpr ⟨by linarith, by linarith⟩
    linarith)
  obtain ⟨t, e, hn⟩ := lin_from_nearest .f64 .w32 (Or.inr rfl) (Or.inl rfl) _ hrn hrin
  have e' := linFrom_enc (w := .w32) (Fl.Is.num hrn) hrin
  rw [show W.src .w32 = .f64 from rfl, e] at e'
  rw [← Except.ok.inj e', nearestLin_unique near' hn]
  exact nearestLin_of_strict near

end Takum
