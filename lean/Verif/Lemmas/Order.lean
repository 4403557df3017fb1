import Verif.Lemmas.EncodeCor

/-! # Order of the integers and order of the values -/

namespace Takum
open Spec

section
variable {K : Type*} [Field K] [LinearOrder K] [IsStrictOrderedRing K]

/-- Signed value from a positive increasing function of `ell`. -/
def val {n : ℕ} (g : ℚ → K) (t : BitVec n) : K :=
  if t = 0#n then 0 else (if t.msb then -1 else 1) * g (ell t)

theorem toInt_pos_iff {n : ℕ} (hn : 1 ≤ n) {t : BitVec n} (h : Regular t) : 0 < t.toInt ↔ t.msb = false := by
  rw [toInt_mkT hn]
  have h1 := low_lt t
  have h2 := low_pos hn h
  have h3 : ((2 ^ (n - 1) : ℕ) : ℤ) = 2 ^ (n - 1) := by push_cast; rfl
  cases hm : t.msb <;> simp <;> omega

theorem toInt_neg_iff {n : ℕ} (hn : 1 ≤ n) {t : BitVec n} (h : Regular t) : t.toInt < 0 ↔ t.msb = true := by
  rw [toInt_mkT hn]
  have h1 := low_lt t
  have h2 := low_pos hn h
  have h3 : ((2 ^ (n - 1) : ℕ) : ℤ) = 2 ^ (n - 1) := by push_cast; rfl
  cases hm : t.msb <;> simp <;> omega

theorem pos_lt_iff {n : ℕ} (a b : BitVec n) : pos a < pos b ↔ low a < low b := by
  unfold pos
  rw [div_lt_div_iff_of_pos_right (by positivity)]
  exact_mod_cast Iff.rfl

theorem ell_lt_iff_pos {n : ℕ} (hn : 5 ≤ n) {a b : BitVec n} (ha : a.msb = false) (hb : b.msb = false) :
    ell a < ell b ↔ a.toInt < b.toInt := by
  rw [ell_eq hn, ell_eq hn, ha, hb]
  simp only [Bool.false_eq_true, if_false, one_mul]
  rw [psi_lt_iff (pos_nonneg a) (pos_lt hn a) (pos_nonneg b) (pos_lt hn b), pos_lt_iff,
    toInt_mkT (by omega), toInt_mkT (by omega), ha, hb]
  simp

theorem ell_lt_iff_neg {n : ℕ} (hn : 5 ≤ n) {a b : BitVec n} (ha : a.msb = true) (hb : b.msb = true) :
    ell a < ell b ↔ b.toInt < a.toInt := by
  rw [ell_eq hn, ell_eq hn, ha, hb]
  simp only [if_true, neg_mul, one_mul, neg_lt_neg_iff]
  rw [psi_lt_iff (pos_nonneg b) (pos_lt hn b) (pos_nonneg a) (pos_lt hn a), pos_lt_iff,
    toInt_mkT (by omega), toInt_mkT (by omega), ha, hb]
  simp

theorem val_lt_iff {n : ℕ} (hn : 5 ≤ n) {g : ℚ → K} (hg : StrictMono g) (hp : ∀ x, 0 < g x)
    {a b : BitVec n} (ha : a ≠ nar n) (hb : b ≠ nar n) : val g a < val g b ↔ a.toInt < b.toInt := by
  unfold val
  by_cases a0 : a = 0#n
  · by_cases b0 : b = 0#n
    · simp [a0, b0]
    · have rb : Regular b := ⟨b0, hb⟩
      rw [if_pos a0, if_neg b0, a0, BitVec.toInt_zero, toInt_pos_iff (by omega) rb]
      have := hp (ell b)
      cases b.msb <;> simp [this, this.le]
  · have ra : Regular a := ⟨a0, ha⟩
    rw [if_neg a0]
    by_cases b0 : b = 0#n
    · rw [if_pos b0, b0, BitVec.toInt_zero, toInt_neg_iff (by omega) ra]
      have := hp (ell a)
      cases a.msb <;> simp [this, this.le]
    · have rb : Regular b := ⟨b0, hb⟩
      rw [if_neg b0]
      have pa := hp (ell a)
      have pb := hp (ell b)
      have ia := toInt_pos_iff (by omega) ra
      have ib := toInt_pos_iff (by omega) rb
      have ja := toInt_neg_iff (by omega) ra
      have jb := toInt_neg_iff (by omega) rb
      cases ma : a.msb <;> cases mb : b.msb
      · simp only [Bool.false_eq_true, if_false, one_mul]
        rw [hg.lt_iff_lt, ell_lt_iff_pos hn ma mb]
      · have h1 := ia.mpr ma
        have h2 := jb.mpr mb
        simp only [Bool.false_eq_true, if_false, one_mul, if_true, neg_mul]
        constructor
        · intro h; linarith
        · intro h; omega
      · have h1 := ja.mpr ma
        have h2 := ib.mpr mb
        simp only [Bool.false_eq_true, if_false, one_mul, if_true, neg_mul]
        constructor
        · intro h; omega
        · intro h; linarith
      · simp only [if_true, neg_mul, one_mul, neg_lt_neg_iff]
        rw [hg.lt_iff_lt, ell_lt_iff_neg hn mb ma]

theorem val_le_iff {n : ℕ} (hn : 5 ≤ n) {g : ℚ → K} (hg : StrictMono g) (hp : ∀ x, 0 < g x)
    {a b : BitVec n} (ha : a ≠ nar n) (hb : b ≠ nar n) : val g a ≤ val g b ↔ a.toInt ≤ b.toInt := by
  rw [← not_lt, ← not_lt, val_lt_iff hn hg hp hb ha]

theorem val_inj {n : ℕ} (hn : 5 ≤ n) {g : ℚ → K} (hg : StrictMono g) (hp : ∀ x, 0 < g x)
    {a b : BitVec n} (ha : a ≠ nar n) (hb : b ≠ nar n) (h : val g a = val g b) : a = b := by
  have h1 := (val_le_iff hn hg hp ha hb).mp h.le
  have h2 := (val_le_iff hn hg hp hb ha).mp h.ge
  exact BitVec.eq_of_toInt_eq (le_antisymm h1 h2)

end

theorem regular_neg {n : ℕ} (hn : 5 ≤ n) {t : BitVec n} (h : Regular t) :
    (-t).msb = !t.msb ∧ low (-t) = 2 ^ (n - 1) - low t ∧ Regular (-t) ∧ ell (-t) = ell t := by
  have h1 := low_pos (by omega) h
  have h2 := low_lt t
  have e : -t = mkT n (!t.msb) (2 ^ (n - 1) - low t) := by
    conv_lhs => rw [eq_mkT (by omega) t]
    exact neg_mkT (by omega) t.msb h1 h2
  have hm : (-t).msb = !t.msb := by rw [e, mkT_msb (by omega) _ (by omega)]
  have hl : low (-t) = 2 ^ (n - 1) - low t := by rw [e, mkT_low (by omega) _ (by omega)]
  refine ⟨hm, hl, (regular_iff (by omega) _).mpr (by rw [hl]; omega), ?_⟩
  have hp : pos (-t) = 16 - pos t := by
    unfold pos; rw [hl, pow16 hn, Nat.cast_sub (by rw [← pow16 hn]; exact h2.le)]
    field_simp; push_cast; ring
  rw [ell_eq hn, ell_eq hn, hm, hp, psi_symm (pos_pos (by omega) h) (pos_lt hn t)]
  cases t.msb <;> simp

noncomputable def logG (x : ℚ) : ℝ := Real.sqrt (Real.exp 1) ^ (x : ℝ)

theorem one_lt_sqrte : 1 < Real.sqrt (Real.exp 1) := by
  rw [Real.lt_sqrt (by norm_num)]
  have := Real.add_one_lt_exp (x := 1) (by norm_num)
  linarith

theorem logG_mono : StrictMono logG := by
  intro x y h
  exact Real.rpow_lt_rpow_of_exponent_lt one_lt_sqrte (by exact_mod_cast h)

theorem logG_pos (x : ℚ) : 0 < logG x := Real.rpow_pos_of_pos (by linarith [one_lt_sqrte]) _

theorem logG_exp (x : ℚ) : logG x = Real.exp (x / 2) := by
  unfold logG
  rw [Real.sqrt_eq_rpow, ← Real.exp_mul, ← Real.exp_mul]
  congr 1; ring

theorem logVal_val {n : ℕ} (hn : 1 ≤ n) {t : BitVec n} (h : t ≠ nar n) : logVal t = some (val logG t) := by
  unfold logVal val
  rw [if_neg h]
  by_cases h0 : t = 0#n
  · rw [if_pos h0, if_pos h0]
  · rw [if_neg h0, if_neg h0, S_eq hn]
    cases hm : t.msb <;> simp [logG]

theorem linVal_val {n : ℕ} (hn : 5 ≤ n) {t : BitVec n} (h : t ≠ nar n) : linVal t = some (val lam t) := by
  by_cases h0 : t = 0#n
  · unfold linVal val; rw [if_neg h, if_pos h0, if_pos h0]
  · rw [linVal_eq hn ⟨h0, h⟩]; unfold val; rw [if_neg h0]

theorem nar_toInt {n : ℕ} (hn : 1 ≤ n) : (nar n).toInt = -2 ^ (n - 1) := by
  rw [toInt_mkT hn, nar_msb hn, nar_eq, mkT_low hn _ (by positivity)]; simp

theorem nar_lt {n : ℕ} (hn : 1 ≤ n) {t : BitVec n} (h : t ≠ nar n) : (nar n).toInt < t.toInt := by
  rw [nar_toInt hn]
  have h1 := BitVec.le_toInt t
  rcases lt_or_eq_of_le h1 with h2 | h2
  · exact h2
  · exact absurd (BitVec.eq_of_toInt_eq (h2.symm.trans (nar_toInt hn).symm)) h

end Takum
