import Mathlib.Data.Int.Log
import Mathlib.Data.Rat.Floor
import Mathlib.Tactic.Linarith
import Mathlib.Tactic.Ring
import Mathlib.Tactic.FieldSimp
import Mathlib.Tactic.Positivity
import Mathlib.Tactic.NormNum

/-!
# Rounding (IEEE-754 round to nearest, ties to even)

Generic over a linearly ordered field with floor, so that it can be used on `ℚ` (execution of the
model) and on `ℝ` (specification of the math library).
-/

namespace Takum

section rne
variable {K : Type*} [Field K] [LinearOrder K] [IsStrictOrderedRing K] [FloorRing K]

/-- Round to the nearest integer, ties to the even integer. -/
def rne (x : K) : ℤ :=
  if Int.fract x < 1 / 2 then ⌊x⌋
  else if 1 / 2 < Int.fract x then ⌊x⌋ + 1
  else if ⌊x⌋ % 2 = 0 then ⌊x⌋ else ⌊x⌋ + 1

/-- `k` is the integer nearest to `x`, even in case of a tie. -/
def IsRne (x : K) (k : ℤ) : Prop := |x - k| < 1 / 2 ∨ (|x - k| = 1 / 2 ∧ k % 2 = 0)

theorem rne_isRne (x : K) : IsRne x (rne x) := by
  have h0 := Int.fract_nonneg x
  have h1 := Int.fract_lt_one x
  have hx : x = ⌊x⌋ + Int.fract x := (Int.floor_add_fract x).symm
  unfold rne IsRne
  set f := Int.fract x
  set n := ⌊x⌋
  split_ifs with a b c
  · left; rw [hx, abs_lt]; constructor <;> linarith
  · left; rw [hx, abs_lt]; push_cast; constructor <;> linarith
  · right
    have : f = 1 / 2 := by linarith [not_lt.mp a, not_lt.mp b]
    refine ⟨?_, c⟩
    rw [hx, this, add_sub_cancel_left, abs_of_pos (by norm_num)]
  · right
    have : f = 1 / 2 := by linarith [not_lt.mp a, not_lt.mp b]
    refine ⟨?_, by omega⟩
    rw [hx, this]; push_cast
    rw [show (n : K) + 1 / 2 - (n + 1) = -(1 / 2) by ring, abs_neg, abs_of_pos (by norm_num)]

theorem IsRne.unique {x : K} {j k : ℤ} (hj : IsRne x j) (hk : IsRne x k) : j = k := by
  by_contra hne
  wlog hlt : j < k generalizing j k with H
  · exact H hk hj (Ne.symm hne) (by omega)
  have h1 : (j : K) + 1 ≤ k := by exact_mod_cast hlt
  unfold IsRne at hj hk
  have bj : x - j ≤ 1 / 2 := by
    rcases hj with h | ⟨h, _⟩
    · exact (abs_lt.mp h).2.le
    · exact (le_abs_self _).trans h.le
  have bk : -(1 / 2) ≤ x - k := by
    rcases hk with h | ⟨h, _⟩
    · exact (abs_lt.mp h).1.le
    · have := neg_abs_le (x - k); rw [h] at this; exact this
  have e1 : x - j = 1 / 2 := by linarith
  have e2 : x - k = -(1 / 2) := by linarith
  have e3 : (k : K) = j + 1 := by linarith
  have e4 : k = j + 1 := by exact_mod_cast e3
  rcases hj with h | ⟨_, pj⟩
  · rw [e1, abs_of_pos (by norm_num)] at h; exact lt_irrefl _ h
  rcases hk with h | ⟨_, pk⟩
  · rw [e2, abs_neg, abs_of_pos (by norm_num)] at h; exact lt_irrefl _ h
  omega

theorem IsRne.eq {x : K} {k : ℤ} (h : IsRne x k) : rne x = k := (rne_isRne x).unique h

theorem rne_eq_iff {x : K} {k : ℤ} : rne x = k ↔ IsRne x k :=
  ⟨fun h => h ▸ rne_isRne x, IsRne.eq⟩

@[simp] theorem rne_intCast (n : ℤ) : rne (n : K) = n :=
  IsRne.eq (Or.inl (by simp))

@[simp] theorem rne_zero : rne (0 : K) = 0 := by exact_mod_cast rne_intCast (K := K) 0

theorem rne_neg (x : K) : rne (-x) = -rne x := by
  apply IsRne.eq
  have h := rne_isRne x
  unfold IsRne at *
  have e : -x - ((-rne x : ℤ) : K) = -(x - rne x) := by push_cast; ring
  rw [e, abs_neg]
  rcases h with h | ⟨h, p⟩
  · exact Or.inl h
  · exact Or.inr ⟨h, by omega⟩

theorem rne_add_even (x : K) (k : ℤ) (hk : k % 2 = 0) : rne (x + k) = rne x + k := by
  apply IsRne.eq
  have h := rne_isRne x
  unfold IsRne at *
  have e : x + k - ((rne x + k : ℤ) : K) = x - rne x := by push_cast; ring
  rw [e]
  rcases h with h | ⟨h, p⟩
  · exact Or.inl h
  · exact Or.inr ⟨h, by omega⟩

theorem abs_sub_rne (x : K) : |x - rne x| ≤ 1 / 2 := by
  rcases rne_isRne x with h | ⟨h, _⟩
  · exact h.le
  · exact h.le

theorem sub_rne_le (x : K) : x - rne x ≤ 1 / 2 := (abs_le.mp (abs_sub_rne x)).2
theorem neg_half_le_sub_rne (x : K) : -(1 / 2) ≤ x - rne x := (abs_le.mp (abs_sub_rne x)).1

theorem rne_mono {x y : K} (h : x ≤ y) : rne x ≤ rne y := by
  by_contra hlt
  push Not at hlt
  have h1 : (rne y : K) + 1 ≤ rne x := by exact_mod_cast hlt
  have a := neg_half_le_sub_rne x
  have b := sub_rne_le y
  have hxy : x = y := by linarith
  subst hxy
  exact lt_irrefl _ hlt

theorem rne_le_of_le {x : K} {n : ℤ} (h : x ≤ n) : rne x ≤ n := by
  simpa using rne_mono h

theorem le_rne_of_le {x : K} {n : ℤ} (h : (n : K) ≤ x) : n ≤ rne x := by
  simpa using rne_mono h

theorem floor_le_rne (x : K) : ⌊x⌋ ≤ rne x := le_rne_of_le (Int.floor_le x)

theorem rne_le_floor_add_one (x : K) : rne x ≤ ⌊x⌋ + 1 :=
  rne_le_of_le (by push_cast; exact (Int.lt_floor_add_one x).le)

end rne

/-- A binary floating-point format: significand bits (including the leading one), exponent of the
smallest subnormal, and exponent of overflow (all finite values are below `2^emax`). -/
structure Fmt where
  prec : ℕ
  emin : ℤ
  emax : ℤ
  deriving DecidableEq, Repr

/-- IEEE binary32, C's `float`. -/
def b32 : Fmt := ⟨24, -149, 128⟩
/-- IEEE binary64, C's `double`. -/
def b64 : Fmt := ⟨53, -1074, 1024⟩
/-- x87 80-bit extended, C's `long double` on x86-64. -/
def x80 : Fmt := ⟨64, -16445, 16384⟩
/-- IEEE binary128, C's `long double` on e.g. AArch64 Linux. -/
def b128 : Fmt := ⟨113, -16494, 16384⟩

namespace Fmt

/-- `q` is a multiple of a power of two that fits the significand of the format (no upper bound on
the exponent). -/
def Rep (F : Fmt) (q : ℚ) : Prop :=
  ∃ m e : ℤ, q = m * (2 : ℚ) ^ e ∧ |m| < 2 ^ F.prec ∧ F.emin ≤ e

/-- `q` is a finite value of the format. -/
def In (F : Fmt) (q : ℚ) : Prop := F.Rep q ∧ |q| < (2 : ℚ) ^ F.emax

section
variable {K : Type*} [Field K] [LinearOrder K] [IsStrictOrderedRing K] [FloorRing K]

/-- Exponent of the unit in the last place for rounding `x`. -/
def qexp (F : Fmt) (x : K) : ℤ := max (Int.log 2 |x| - (F.prec - 1)) F.emin

/-- Round `x` to the format with unbounded exponent range upwards. -/
def rq (F : Fmt) (x : K) : ℚ := rne (x / (2 : K) ^ F.qexp x) * (2 : ℚ) ^ F.qexp x

@[simp] theorem rq_zero (F : Fmt) : F.rq (0 : K) = 0 := by simp [rq]

theorem qexp_neg (F : Fmt) (x : K) : F.qexp (-x) = F.qexp x := by simp [qexp]

theorem rq_neg (F : Fmt) (x : K) : F.rq (-x) = -F.rq x := by
  simp [rq, qexp_neg, neg_div, rne_neg]

theorem rq_of_multiple (F : Fmt) {q : ℚ} {m : ℤ} (h : q = m * (2 : ℚ) ^ F.qexp q) : F.rq q = q := by
  have h2 : (2 : ℚ) ^ F.qexp q ≠ 0 := zpow_ne_zero _ (by norm_num)
  unfold rq
  have : q / (2 : ℚ) ^ F.qexp q = m := by rw [div_eq_iff h2]; exact h
  rw [this, rne_intCast]; exact h.symm

theorem qexp_le_of_rep (F : Fmt) {q : ℚ} (hq : q ≠ 0) {m e : ℤ} (h : q = m * (2 : ℚ) ^ e)
    (hm : |m| < 2 ^ F.prec) (he : F.emin ≤ e) : F.qexp q ≤ e := by
  unfold qexp
  apply max_le _ he
  have hpos : 0 < |q| := abs_pos.mpr hq
  have hlt : |q| < (2 : ℚ) ^ (e + F.prec) := by
    rw [h, abs_mul, abs_of_pos (zpow_pos (by norm_num : (0 : ℚ) < 2) e), zpow_add₀ (by norm_num),
      mul_comm]
    have : |(m : ℚ)| < (2 : ℚ) ^ (F.prec : ℤ) := by
      rw [zpow_natCast]; exact_mod_cast hm
    exact mul_lt_mul_of_pos_left this (zpow_pos (by norm_num) e)
  have := (Int.lt_zpow_iff_log_lt (b := 2) (by norm_num) hpos).mp (by exact_mod_cast hlt)
  omega

theorem rq_of_rep (F : Fmt) {q : ℚ} (h : F.Rep q) : F.rq q = q := by
  by_cases hq : q = 0
  · subst hq; simp
  obtain ⟨m, e, h1, h2, h3⟩ := h
  have hk := F.qexp_le_of_rep hq h1 h2 h3
  obtain ⟨d, hd⟩ := Int.eq_ofNat_of_zero_le (sub_nonneg.mpr hk)
  have hd' : e = F.qexp q + d := by omega
  apply F.rq_of_multiple (m := m * 2 ^ d)
  conv_lhs => rw [h1, hd']
  rw [zpow_add₀ (by norm_num : (2 : ℚ) ≠ 0)]
  push_cast
  rw [zpow_natCast]; ring

theorem log_abs_mono {x y : K} (hx : 0 < x) (h : x ≤ y) : Int.log 2 |x| ≤ Int.log 2 |y| := by
  rw [abs_of_pos hx, abs_of_pos (hx.trans_le h)]
  exact Int.log_mono_right hx h

theorem rq_nonneg (F : Fmt) {x : K} (h : 0 ≤ x) : 0 ≤ F.rq x := by
  unfold rq
  have : (0 : ℤ) ≤ rne (x / (2 : K) ^ F.qexp x) := by
    apply le_rne_of_le; push_cast
    exact div_nonneg h (zpow_nonneg (by norm_num) _)
  exact mul_nonneg (by exact_mod_cast this) (zpow_nonneg (by norm_num) _)

theorem rq_mono_pos (F : Fmt) (hp : 1 ≤ F.prec) {x y : K} (hx : 0 < x) (h : x ≤ y) :
    F.rq x ≤ F.rq y := by
  have hy : 0 < y := hx.trans_le h
  have hl := log_abs_mono hx h
  have two : (0 : K) < 2 := by norm_num
  have two' : (0 : ℚ) < 2 := by norm_num
  rcases eq_or_lt_of_le (show F.qexp x ≤ F.qexp y by unfold qexp; omega) with hk | hk
  · unfold rq
    rw [hk]
    apply mul_le_mul_of_nonneg_right _ (zpow_nonneg (by norm_num) _)
    have := rne_mono (div_le_div_of_nonneg_right h (zpow_nonneg two.le (F.qexp y)))
    exact_mod_cast this
  · -- a power of two separates the two
    have hky : F.qexp y = Int.log 2 |y| - (F.prec - 1) := by unfold qexp at *; omega
    have hlt : Int.log 2 |x| < Int.log 2 |y| := by unfold qexp at *; omega
    set L := Int.log 2 |y| with hL
    have hyL : (2 : K) ^ L ≤ y := by
      have := Int.zpow_log_le_self (b := 2) (by norm_num) (abs_pos.mpr hy.ne')
      rw [abs_of_pos hy] at this hL
      rw [hL]; exact_mod_cast this
    have hxL : x ≤ (2 : K) ^ L := by
      have := (Int.lt_zpow_iff_log_lt (b := 2) (R := K) (x := L) (by norm_num) (abs_pos.mpr hx.ne')).mpr hlt
      rw [abs_of_pos hx] at this
      exact_mod_cast this.le
    have key : ∀ k : ℤ, k ≤ L → ∃ n : ℤ, (2 : K) ^ L / (2 : K) ^ k = n ∧ (n : ℚ) * (2 : ℚ) ^ k = (2 : ℚ) ^ L := by
      intro k hkL
      obtain ⟨d, hd⟩ := Int.eq_ofNat_of_zero_le (sub_nonneg.mpr hkL)
      refine ⟨2 ^ d, ?_, ?_⟩
      · rw [← zpow_sub₀ two.ne', hd]; push_cast; simp [zpow_natCast]
      · have : L = d + k := by omega
        rw [this, zpow_add₀ two'.ne']; push_cast; simp [zpow_natCast]
    obtain ⟨n1, a1, b1⟩ := key (F.qexp x) (by unfold qexp at *; omega)
    obtain ⟨n2, a2, b2⟩ := key (F.qexp y) (by unfold qexp at *; omega)
    calc F.rq x ≤ (2 : ℚ) ^ L := by
          unfold rq; rw [← b1]
          apply mul_le_mul_of_nonneg_right _ (zpow_nonneg two'.le _)
          have : rne (x / (2 : K) ^ F.qexp x) ≤ n1 := by
            apply rne_le_of_le; rw [← a1]
            exact div_le_div_of_nonneg_right hxL (zpow_nonneg two.le _)
          exact_mod_cast this
      _ ≤ F.rq y := by
          unfold rq; rw [← b2]
          apply mul_le_mul_of_nonneg_right _ (zpow_nonneg two'.le _)
          have : n2 ≤ rne (y / (2 : K) ^ F.qexp y) := by
            apply le_rne_of_le; rw [← a2]
            exact div_le_div_of_nonneg_right hyL (zpow_nonneg two.le _)
          exact_mod_cast this

theorem rq_mono (F : Fmt) (hp : 1 ≤ F.prec) {x y : K} (h : x ≤ y) : F.rq x ≤ F.rq y := by
  rcases lt_trichotomy x 0 with hx | hx | hx
  · rcases lt_or_ge y 0 with hy | hy
    · have := F.rq_mono_pos hp (x := -y) (y := -x) (by linarith) (by linarith)
      rw [rq_neg, rq_neg] at this; linarith
    · have h1 := F.rq_nonneg (x := -x) (by linarith)
      rw [rq_neg] at h1
      have h2 := F.rq_nonneg hy
      linarith
  · subst hx; rw [rq_zero]; exact F.rq_nonneg h
  · exact F.rq_mono_pos hp hx h

/-- The rounding error is at most half a unit in the last place. -/
theorem abs_sub_rq (F : Fmt) (x : ℚ) : |x - F.rq x| ≤ (2 : ℚ) ^ F.qexp x / 2 := by
  have h2 : (0 : ℚ) < (2 : ℚ) ^ F.qexp x := zpow_pos (by norm_num) _
  have h := abs_sub_rne (x / (2 : ℚ) ^ F.qexp x)
  have e : x - F.rq x = (x / (2 : ℚ) ^ F.qexp x - rne (x / (2 : ℚ) ^ F.qexp x)) * (2 : ℚ) ^ F.qexp x := by
    unfold rq; field_simp
  rw [e, abs_mul, abs_of_pos h2]
  calc _ ≤ 1 / 2 * (2 : ℚ) ^ F.qexp x := mul_le_mul_of_nonneg_right h h2.le
    _ = _ := by ring

end

theorem Rep.zero (F : Fmt) : F.Rep 0 := ⟨0, F.emin, by simp, by simp, le_refl _⟩

theorem Rep.neg {F : Fmt} {q : ℚ} (h : F.Rep q) : F.Rep (-q) := by
  obtain ⟨m, e, h1, h2, h3⟩ := h
  exact ⟨-m, e, by rw [h1]; push_cast; ring, by simpa using h2, h3⟩

/-- A convenient way to show representability: a multiple of `2^e` below `2^(e+prec)` in magnitude. -/
theorem Rep.of_lt {F : Fmt} {q : ℚ} (m e : ℤ) (h : q = m * (2 : ℚ) ^ e) (he : F.emin ≤ e)
    (hq : |q| < (2 : ℚ) ^ (e + F.prec)) : F.Rep q := by
  refine ⟨m, e, h, ?_, he⟩
  have hpos : (0 : ℚ) < (2 : ℚ) ^ e := zpow_pos (by norm_num) e
  rw [h, abs_mul, abs_of_pos hpos, zpow_add₀ (by norm_num), mul_comm] at hq
  have := lt_of_mul_lt_mul_left hq hpos.le
  rw [zpow_natCast] at this
  exact_mod_cast this

end Fmt
end Takum
