import Verif.Props.Sterbenz
import Verif.Props.LinNearest

/-!
# C110: integers in linear takum arithmetic
-/

namespace Takum
open Spec

/-- Numbers that are multiples of the local unit are values of linear takums. -/
theorem lin_takum_exists {w : W} (hw : 12 ≤ w.n) {c K : ℤ} {d : ℚ} (h1 : -255 < c) (h2 : c < 255) (hl : (2 : ℚ) ^ c ≤ d)
    (hu : d < (2 : ℚ) ^ (c + 1)) (hK : d = K * (2 : ℚ) ^ (c - (w.n - 5 : ℕ) + rg c)) :
    ∃ t : T w, Regular t ∧ lv t = d := by
  have hz : ∀ e : ℤ, (0 : ℚ) < (2 : ℚ) ^ e := fun e => zpow_pos (by norm_num) _
  have dl := lam_lamInv ((hz c).trans_le hl)
  set y := lamInv d with hy
  obtain ⟨b1, b2⟩ := lam_bounds y
  rw [dl] at b1 b2
  have one : (1 : ℚ) < 2 := by norm_num
  have fy : ⌊y⌋ = c := by
    have g1 := (zpow_lt_zpow_iff_right₀ one).mp (b1.trans_lt hu)
    have g2 := (zpow_lt_zpow_iff_right₀ one).mp (hl.trans_lt b2)
    omega
  have y1 : (-255 : ℚ) < y := by
    have : (c : ℚ) ≤ y := by rw [← fy]; exact Int.floor_le y
    have : (-255 : ℚ) < c := by exact_mod_cast h1
    linarith
  have y2 : y < (255 : ℚ) := by
    have : y < c + 1 := by rw [← fy]; exact Int.lt_floor_add_one y
    have : (c : ℚ) + 1 ≤ 255 := by exact_mod_cast h2
    linarith
  have r8 := (rg_spec h1.le h2).1
  obtain ⟨m, hm'⟩ : ∃ m : ℕ, w.n - 5 = rg c + m := ⟨w.n - 5 - rg c, by omega⟩
  obtain ⟨t, rt, mt, et⟩ := takum_exists (n := w.n) hw y1 y2 (j := K + (c - 1) * 2 ^ m) (by
    have la := lam_affine (Int.floor_le y) (Int.lt_floor_add_one y).le
    rw [dl, hK, hm', fy] at la
    have e : (2 : ℚ) ^ (c - ((rg c + m : ℕ) : ℤ) + rg c) * 2 ^ m = (2 : ℚ) ^ c := by
      rw [← zpow_natCast (2 : ℚ) m, ← zpow_add₀ (by norm_num)]; congr 1; push_cast; ring
    rw [← e] at la
    have hE := (hz (c - ((rg c + m : ℕ) : ℤ) + rg c)).ne'
    generalize (2 : ℚ) ^ (c - ((rg c + m : ℕ) : ℤ) + rg c) = E at la hE
    have la' : (K : ℚ) = (1 + (y - c)) * 2 ^ m := by
      apply mul_right_cancel₀ hE; linear_combination la
    rw [hm', fy, pow_add]
    push_cast
    linear_combination -(2 : ℚ) ^ rg c * la')
  exact ⟨t, rt, by unfold lv; rw [mt, et, dl]; simp [sg]⟩

/-- The exponent of the bound: every integer of magnitude up to `2^intBits` is a linear takum. -/
def intBits : W → ℕ
  | .w8 => 3
  | .w16 => 9
  | .w32 => 24
  | .w64 => 55

theorem int_tab (w : W) (hw : w ≠ .w8) : ∀ c ≤ intBits w, c + rg c ≤ w.n - 5 + (if c = intBits w then 1 else 0) := by
  cases w
  · exact absurd rfl hw
  all_goals decide +kernel

theorem int8_all : ∀ i < 9, ∃ t : T .w8, Regular t ∧ (i = 0 ∨ lv t = (i : ℕ)) := by
  have key : ∀ i < 9, ∃ k < 128, (BitVec.ofNat 8 k : T .w8) ≠ 0#8 ∧ (BitVec.ofNat 8 k : T .w8) ≠ nar 8 ∧
    (i = 0 ∨ lv (BitVec.ofNat 8 k : T .w8) = (i : ℕ)) := by decide +kernel
  intro i hi
  obtain ⟨k, -, h1, h2, h3⟩ := key i hi
  exact ⟨_, ⟨h1, h2⟩, h3⟩

theorem nat_takum (w : W) {i : ℕ} (h0 : 0 < i) (h : i ≤ 2 ^ intBits w) : ∃ t : T w, Regular t ∧ lv t = (i : ℚ) := by
  by_cases hw : w = .w8
  · subst hw
    obtain ⟨t, rt, h' | h'⟩ := int8_all i (by simp only [intBits] at h; omega)
    · omega
    · exact ⟨t, rt, h'⟩
  have hn : 12 ≤ w.n := by cases w <;> first | exact absurd rfl hw | decide
  have hB : intBits w ≤ 55 := by cases w <;> decide
  have l1 : 2 ^ Nat.log 2 i ≤ i := Nat.pow_log_le_self 2 h0.ne'
  have l2 : i < 2 ^ (Nat.log 2 i + 1) := Nat.lt_pow_succ_log_self (by norm_num) i
  set c := Nat.log 2 i with hc
  have hcB : c ≤ intBits w := by
    by_contra hh
    have : 2 ^ (intBits w + 1) ≤ 2 ^ c := Nat.pow_le_pow_right (by norm_num) (by omega)
    have : 2 ^ intBits w < 2 ^ (intBits w + 1) := Nat.pow_lt_pow_right (by norm_num) (by omega)
    omega
  have tab := int_tab w hw c hcB
  obtain ⟨K, hK⟩ : ∃ K : ℤ, (i : ℚ) = K * (2 : ℚ) ^ ((c : ℤ) - (w.n - 5 : ℕ) + rg c) := by
    by_cases hlt : c = intBits w
    · have : i = 2 ^ c := le_antisymm (by rw [hlt]; exact h) l1
      have r8 := (rg_spec (c := (c : ℤ)) (by omega) (by omega)).1
      refine ⟨2 ^ (w.n - 5 - rg c), ?_⟩
      rw [this]
      push_cast
      rw [← zpow_natCast (2 : ℚ) (w.n - 5 - rg c), ← zpow_add₀ (by norm_num), ← zpow_natCast]
      congr 1
      push_cast [Nat.cast_sub (by omega : rg (c : ℤ) ≤ w.n - 5)]
      omega
    · rw [if_neg hlt] at tab
      refine ⟨i * 2 ^ (w.n - 5 - (c + rg c)), ?_⟩
      push_cast
      rw [mul_assoc, ← zpow_natCast (2 : ℚ) (w.n - 5 - (c + rg c)), ← zpow_add₀ (by norm_num)]
      have : ((w.n - 5 - (c + rg c) : ℕ) : ℤ) + ((c : ℤ) - (w.n - 5 : ℕ) + rg c) = 0 := by
        rw [Nat.cast_sub (by omega : c + rg (c : ℤ) ≤ w.n - 5)]; push_cast; ring
      rw [this]; simp
  exact lin_takum_exists hn (c := c) (by omega) (by omega) (by rw [zpow_natCast]; exact_mod_cast l1)
    (by rw [show (c : ℤ) + 1 = ((c + 1 : ℕ) : ℤ) by push_cast; ring, zpow_natCast]; exact_mod_cast l2) hK

theorem int_takum (w : W) {i : ℤ} (h : |i| ≤ 2 ^ intBits w) : ∃ t : T w, t ≠ nar w.n ∧ qv t = (i : ℚ) := by
  rcases lt_trichotomy i 0 with h0 | rfl | h0
  · rw [abs_of_neg h0] at h
    obtain ⟨k, hk⟩ := Int.eq_ofNat_of_zero_le (by omega : 0 ≤ -i)
    rw [hk] at h
    obtain ⟨t, rt, et⟩ := nat_takum w (i := k) (by omega) (by exact_mod_cast h)
    refine ⟨-t, neg_ne_nar rt.2, ?_⟩
    rw [qv_neg rt.2, qv_regular rt, et]
    have : (i : ℚ) = ((-(k : ℤ) : ℤ) : ℚ) := by congr 1; omega
    rw [this]; push_cast; rfl
  · exact ⟨0#w.n, zero_ne_nar w, by rw [qv_zero]; simp⟩
  · rw [abs_of_pos h0] at h
    obtain ⟨k, hk⟩ := Int.eq_ofNat_of_zero_le h0.le
    rw [hk] at h
    obtain ⟨t, rt, et⟩ := nat_takum w (i := k) (by omega) (by exact_mod_cast h)
    exact ⟨t, rt.2, by rw [qv_regular rt, et, hk]; simp⟩

/-- C110: every integer of magnitude up to `2^3`, `2^9`, `2^24`, `2^55` is a linear takum of 8, 16, 32, 64 bits. -/
theorem lin_integers (w : W) (i : ℤ) (h : |i| ≤ 2 ^ intBits w) : ∃ t : T w, linVal t = some (i : ℚ) := by
  obtain ⟨t, tn, et⟩ := int_takum w h
  exact ⟨t, by rw [linVal_qv tn, et]⟩

example : |(-2 : ℤ) ^ 55 + 1| ≤ 2 ^ intBits .w64 := by decide

/-- C110: the next integer is not, so the bound cannot be raised. -/
theorem lin_integers_sharp (w : W) : ¬ ∃ t : T w, linVal t = some ((2 ^ intBits w + 1 : ℕ) : ℚ) := by
  rintro ⟨t, ht⟩
  have tn : t ≠ nar w.n := by rintro rfl; simp [linVal] at ht
  by_cases hw : w = .w8
  · subst hw
    have key : ∀ k < 256, linVal (BitVec.ofNat 8 k) ≠ some ((2 ^ intBits .w8 + 1 : ℕ) : ℚ) := by decide +kernel
    exact key t.toNat t.isLt (by simpa using ht)
  have hn : 12 ≤ w.n := by cases w <;> first | exact absurd rfl hw | decide
  rw [linVal_qv tn] at ht
  have ht := Option.some.inj ht
  have rt : Regular t := ⟨fun h => by rw [h, qv_zero] at ht; exact absurd ht (by positivity), tn⟩
  rw [qv_regular rt] at ht
  have mt : lam (ell t) = ((2 ^ intBits w + 1 : ℕ) : ℚ) := by
    rw [← lv_abs, ht, abs_of_pos (by positivity)]
  obtain ⟨b1, b2⟩ := lam_bounds (ell t)
  have one : (1 : ℚ) < 2 := by norm_num
  have hB1 : 1 ≤ intBits w := by cases w <;> decide
  have fl : ⌊ell t⌋ = intBits w := by
    rw [mt] at b1 b2
    have n1 : 2 ^ intBits w + 1 < 2 ^ (intBits w + 1) := by cases w <;> decide
    have g1 : (2 : ℚ) ^ ⌊ell t⌋ < (2 : ℚ) ^ ((intBits w + 1 : ℕ) : ℤ) := b1.trans_lt (by rw [zpow_natCast]; exact_mod_cast n1)
    have g2 : (2 : ℚ) ^ (intBits w : ℤ) < (2 : ℚ) ^ (⌊ell t⌋ + 1) := lt_trans (by rw [zpow_natCast]; push_cast; linarith) b2
    have := (zpow_lt_zpow_iff_right₀ one).mp g1
    have := (zpow_lt_zpow_iff_right₀ one).mp g2
    push_cast at *
    omega
  have e1 : (intBits w : ℤ) - (w.n - 5 : ℕ) + rg (intBits w) = 1 := by
    cases w
    · exact absurd rfl hw
    all_goals decide +kernel
  obtain ⟨i1, i2, -⟩ := rg_spec (c := (intBits w : ℤ)) (by omega) (by cases w <;> decide)
  obtain ⟨k, hk⟩ := lam_multiple hn t i1 i2 (by rw [← fl]; exact b1) (by rw [← fl]; exact b2.le)
  rw [mt, e1] at hk
  have hk' : ((2 ^ intBits w + 1 : ℕ) : ℤ) = k * 2 := by
    have : (((2 ^ intBits w + 1 : ℕ) : ℤ) : ℚ) = ((k * 2 : ℤ) : ℚ) := by push_cast; push_cast at hk; linarith
    exact_mod_cast this
  have : (2 : ℕ) ^ intBits w % 2 = 0 := by cases w <;> decide
  push_cast at hk'
  have e2 : ((2 : ℤ) ^ intBits w) % 2 = 0 := by exact_mod_cast congrArg (Nat.cast : ℕ → ℤ) this
  omega

/-- A result that is a takum is returned. -/
theorem lin_exact {w : W} {q : ℚ} {i : ℤ} (hq : q = i) (h : |i| ≤ 2 ^ intBits w) :
    linVal (linEnc w (w.src.fmt.rq q)) = some (i : ℚ) := by
  obtain ⟨t, tn, et⟩ := int_takum w h
  rw [hq, ← et, rq_qv, linEnc_qv tn, linVal_qv tn]

/-- C110: sums, differences, products and quotients of integers are exact if they are integers within the bound. -/
theorem lin_integer_arithmetic (w : W) (a b : T w) (i j : ℤ) (ha : linVal a = some (i : ℚ)) (hb : linVal b = some (j : ℚ)) :
    (|i + j| ≤ 2 ^ intBits w → ∃ s, linAddition w a b = .ok s ∧ linVal s = some ((i + j : ℤ) : ℚ)) ∧
    (|i - j| ≤ 2 ^ intBits w → ∃ s, linSubtraction w a b = .ok s ∧ linVal s = some ((i - j : ℤ) : ℚ)) ∧
    (|i * j| ≤ 2 ^ intBits w → ∃ s, linMultiplication w a b = .ok s ∧ linVal s = some ((i * j : ℤ) : ℚ)) ∧
    (∀ k : ℤ, j ≠ 0 → i = k * j → |k| ≤ 2 ^ intBits w → ∃ s, linDivision w a b = .ok s ∧ linVal s = some (k : ℚ)) := by
  have an : a ≠ nar w.n := by rintro rfl; simp [linVal] at ha
  have bn : b ≠ nar w.n := by rintro rfl; simp [linVal] at hb
  rw [linVal_qv an] at ha
  rw [linVal_qv bn] at hb
  have ha := Option.some.inj ha
  have hb := Option.some.inj hb
  refine ⟨fun h => ⟨_, linAddition_eq an bn, lin_exact (by rw [ha, hb]; push_cast; ring) h⟩,
    fun h => ⟨_, linSubtraction_eq an bn, lin_exact (by rw [ha, hb]; push_cast; ring) h⟩,
    fun h => ⟨_, linMultiplication_eq an bn, lin_exact (by rw [ha, hb]; push_cast; ring) h⟩,
    fun k j0 hk h => ?_⟩
  have j0' : (j : ℚ) ≠ 0 := by exact_mod_cast j0
  have rb : Regular b := ⟨fun e => j0' (by rw [← hb, e, qv_zero]), bn⟩
  exact ⟨_, linDivision_eq an rb, lin_exact (by rw [ha, hb, hk]; push_cast; field_simp) h⟩

/-- C110: the square root of the square of an integer within the bound is its absolute value. -/
theorem lin_integer_root (w : W) (a : T w) (i : ℤ) (ha : linVal a = some ((i ^ 2 : ℤ) : ℚ)) (h : |i| ≤ 2 ^ intBits w) :
    ∃ s, linSquareRoot w a = .ok s ∧ linVal s = some ((|i| : ℤ) : ℚ) := by
  have an : a ≠ nar w.n := by rintro rfl; simp [linVal] at ha
  rw [linVal_qv an] at ha
  have ha := Option.some.inj ha
  by_cases h0 : i = 0
  · subst h0
    have a0 : a = 0#w.n := by
      by_contra hc
      rw [qv_regular ⟨hc, an⟩] at ha
      exact lv_ne a (by rw [ha]; simp)
    subst a0
    refine ⟨0#w.n, by cases w <;> decide +kernel, ?_⟩
    rw [linVal_qv an, qv_zero]; simp
  have hp : 0 < qv a := by rw [ha]; push_cast; positivity
  have ra : Regular a := ⟨fun e => by rw [e, qv_zero] at hp; exact lt_irrefl _ hp, an⟩
  refine ⟨_, (linSquareRoot_pos ra hp).1, ?_⟩
  have : Real.sqrt (qv a : ℝ) = (((|i| : ℤ) : ℚ) : ℝ) := by
    rw [ha]; push_cast; exact Real.sqrt_sq_eq_abs _
  rw [this]
  obtain ⟨t, tn, et⟩ := int_takum w (i := |i|) (by rwa [abs_abs])
  have := rq_qv (w := w) t
  rw [← et, Fmt.rq_cast, this, linEnc_qv tn, linVal_qv tn]

/-- `-300` and `7` in 16 bits; the product `-2100` is beyond the bound, sum and difference are not. -/
example : linVal (0xa6d4#16 : T .w16) = some ((-300 : ℤ) : ℚ) ∧ linVal (0x4f00#16 : T .w16) = some ((7 : ℤ) : ℚ) ∧
    |(-300 : ℤ) + 7| ≤ 2 ^ intBits .w16 ∧ linAddition .w16 0xa6d4#16 0x4f00#16 = .ok 0xa6db#16 ∧
    linVal (0xa6db#16 : T .w16) = some ((-293 : ℤ) : ℚ) := by decide +kernel

end Takum
