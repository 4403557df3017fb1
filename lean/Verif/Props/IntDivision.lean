import Verif.Props.Scale
import Verif.Props.LinWide
import Verif.Props.LinDivNearest
import Verif.Props.Iterate
import Mathlib.Data.Nat.Log
import Mathlib.Data.Nat.Sqrt

/-!
# C151: integer quotients and integer square roots with linear takums
-/

namespace Takum
open Spec

/-- Just below the integer `q + 1` there is the takum `q + 1 - 2^-s`, if the numbers between the powers of two around `q` have enough bits. -/
theorem just_below {w : W} (hw : w ≠ .w8) {q : ℤ} {e s : ℕ} (h1 : 2 ^ e ≤ q) (h2 : q + 1 ≤ 2 ^ (e + 1)) (h : e + s + rg e ≤ w.n - 5) :
    ∃ t : T w, linVal t = some ((q : ℚ) + 1 - 2 ^ (-(s : ℤ))) := by
  have hn : 12 ≤ w.n := by cases w <;> first | exact absurd rfl hw | decide
  have hn' : w.n ≤ 64 := by cases w <;> decide
  have z0 : (0 : ℚ) < 2 ^ (-(s : ℤ)) := by positivity
  have z1 : (2 : ℚ) ^ (-(s : ℤ)) ≤ 1 := zpow_le_one_of_nonpos₀ (by norm_num) (by omega)
  have q1 : (2 : ℚ) ^ e ≤ q := by exact_mod_cast h1
  have q2 : (q : ℚ) + 1 ≤ 2 ^ (e + 1) := by exact_mod_cast h2
  obtain ⟨t, rt, et⟩ := lin_takum_exists (w := w) hn (c := e) (K := ((q + 1) * 2 ^ s - 1) * 2 ^ (w.n - 5 - (e + s + rg e))) (d := (q : ℚ) + 1 - 2 ^ (-(s : ℤ)))
    (by omega) (by omega) (by rw [zpow_natCast]; linarith) (by rw [show (e : ℤ) + 1 = ((e + 1 : ℕ) : ℤ) by push_cast; rfl, zpow_natCast]; linarith) (by
      push_cast
      rw [mul_assoc, ← zpow_natCast (2 : ℚ) (w.n - 5 - (e + s + rg e)), ← zpow_add₀ (by norm_num),
        show ((w.n - 5 - (e + s + rg e) : ℕ) : ℤ) + ((e : ℤ) - (w.n - 5 : ℕ) + rg e) = -(s : ℤ) by rw [Nat.cast_sub h]; push_cast; ring,
        sub_mul, mul_assoc, zpow_neg, zpow_natCast, mul_inv_cancel₀ (by positivity), mul_one, one_mul])
  exact ⟨t, by rw [linVal_qv rt.2, qv_regular rt, et]⟩

/-- Quotients below `2^quotBits` have at least as many bits as the bound of C110. -/
def quotBits : W → ℕ
  | .w8 => 1
  | .w16 => 7
  | .w32 => 15
  | .w64 => 31

/-- The bound for square roots. -/
def rootBits : W → ℕ
  | .w8 => 0
  | .w16 => 8
  | .w32 => 24
  | .w64 => 54

theorem quot_tab (w : W) (hw : w ≠ .w8) : (∀ e < intBits w, rg (e : ℕ) + (intBits w - 1) ≤ w.n - 5) ∧ (∀ e < quotBits w, rg (e : ℕ) + intBits w ≤ w.n - 5) ∧
    (∀ e < intBits w, 2 * e < rootBits w → e + (e + 2) + rg (e : ℕ) ≤ w.n - 5) := by
  cases w
  · exact absurd rfl hw
  all_goals decide +kernel

/-- A result is at least the integers below the exact value. -/
theorem floor_of' {w : W} {p : LinOp w} {z : ℝ} {q : ℤ} (hp : p.Exact z) (hq : |q| ≤ 2 ^ intBits w) (h : (q : ℝ) ≤ z)
    (hi : ∀ s v, p.run = .ok s → linVal s = some v → v < q + 1) : ∃ s v, p.run = .ok s ∧ linVal s = some v ∧ ⌊v⌋ = q := by
  obtain ⟨a, ha⟩ := lin_integers w q hq
  obtain ⟨a', s, e1, e2, o1⟩ := lin_operations_ordered w (.self a) p _ _ (.self (value_lin ha)) hp (by simpa using h)
  cases e1
  have h8 := w.n_pos
  have sn : s ≠ nar w.n := by
    rintro rfl
    rw [nar_toInt (by omega)] at o1
    have l := BitVec.le_toInt a
    have : a = nar w.n := BitVec.toInt_inj.mp (by rw [nar_toInt (by omega)]; omega)
    subst this
    simp [linVal] at ha
  obtain ⟨v, hv⟩ := linVal_some sn
  exact ⟨s, v, e2, hv, Int.floor_eq_iff.mpr ⟨(linVal_order ha hv).mp o1, hi s v e2 hv⟩⟩

/-- A result whose exact value lies between an integer and a takum below the next integer has that integer as its integer part. -/
theorem floor_of {w : W} {p : LinOp w} {z : ℝ} {q : ℤ} {t : T w} {u : ℚ} (hp : p.Exact z) (hq : |q| ≤ 2 ^ intBits w) (h : (q : ℝ) ≤ z)
    (ht : linVal t = some u) (h1 : z ≤ u) (h2 : u < q + 1) : ∃ s v, p.run = .ok s ∧ linVal s = some v ∧ ⌊v⌋ = q := by
  refine floor_of' hp hq h fun s v e hv => ?_
  obtain ⟨s', t', e3, e4, o2⟩ := lin_operations_ordered w p (.self t) _ _ hp (.self (value_lin ht)) h1
  cases e4
  rw [e] at e3
  cases e3
  exact lt_of_le_of_lt ((linVal_order hv ht).mp o2) h2

theorem below_one (w : W) : ∃ (t : T w) (u : ℚ), linVal t = some u ∧ 1 - 2 ^ (-(intBits w + 1 : ℤ)) ≤ u ∧ u < 1 := by
  refine ⟨ONE w - 1#w.n, qv (ONE w - 1#w.n), linVal_qv (by cases w <;> decide), ?_⟩
  cases w <;> decide +kernel

/-- The takums 0 to 8 of 8 bits. -/
def int8 : ℕ → T .w8
  | 0 => 0 | 1 => 0x40#8 | 2 => 0x48#8 | 3 => 0x4a#8 | 4 => 0x4c#8 | 5 => 0x4d#8 | 6 => 0x4e#8 | 7 => 0x4f#8 | _ => 0x50#8

theorem int8_val : ∀ i < 9, linVal (int8 i) = some ((i : ℕ) : ℚ) := by decide +kernel

/-- Does the integer part of the result equal `q`? -/
def hasFloor {w : W} (q : ℤ) : C (T w) → Bool
  | .ok s => decide (s ≠ nar w.n) && decide ((q : ℚ) ≤ qv s) && decide (qv s < q + 1)
  | .error _ => false

theorem int8_quot : ∀ i < 9, ∀ j < 9, 0 < j → hasFloor ((i / j : ℕ) : ℤ) (linDivision .w8 (int8 i) (int8 j)) = true := by decide +kernel

/-- The takums 256 to 512 of 16 bits. -/
def int16 (k : ℕ) : T .w16 := BitVec.ofNat 16 (0x5900 + (k - 256))

theorem int16_quot : ∀ k < 43, linVal (int16 (3 * (k + 128) + 2)) = some ((3 * (k + 128) + 2 : ℕ) : ℚ) ∧
    hasFloor ((k : ℕ) + 128 : ℤ) (linDivision .w16 (int16 (3 * (k + 128) + 2)) 0x4a00#16) = true := by decide +kernel

theorem hasFloor_floor {w : W} {q : ℤ} {r : C (T w)} (h : hasFloor q r = true) : ∃ s v, r = .ok s ∧ linVal s = some v ∧ ⌊v⌋ = q := by
  match r, h with
  | .ok s, h =>
    simp only [hasFloor, Bool.and_eq_true, decide_eq_true_eq] at h
    exact ⟨s, qv s, rfl, linVal_qv h.1.1, Int.floor_eq_iff.mpr ⟨h.1.2, h.2⟩⟩

theorem linVal_unique {w : W} {a b : T w} {x : ℚ} (ha : linVal a = some x) (hb : linVal b = some x) : a = b :=
  BitVec.toInt_inj.mp (le_antisymm ((linVal_order ha hb).mpr le_rfl) ((linVal_order hb ha).mpr le_rfl))

theorem regular_of_pos' {w : W} {t : T w} {x : ℚ} (ht : linVal t = some x) (h : 0 < x) : Regular t ∧ t.msb = false := by
  have z : linVal (0#w.n : T w) = some 0 := by rw [linVal_qv (by cases w <;> decide), qv_zero]
  have := (linVal_order ht z).not.mpr (not_le.mpr h)
  rw [(ends_toInt w).2.2.1] at this
  exact regular_of_pos (by omega)

/-- C151: for integers `0 ≤ i ≤ 2^3`, `2^9`, `2^24`, `2^55` (the bound of C110) and any integer `j > 0`, the integer part of the computed quotient of 8, 16, 32, 64 bits is
the integer quotient; for 64 bits provided that `i` is at most half the bound or the quotient is below `2^31`. -/
theorem lin_integer_quotient_partial (w : W) (a b : T w) (i j : ℤ) (ha : linVal a = some (i : ℚ)) (hb : linVal b = some (j : ℚ)) (hi : 0 ≤ i)
    (hi' : i ≤ 2 ^ intBits w) (hj : 0 < j) (hc : w ≠ .w64 ∨ i ≤ 2 ^ (intBits w - 1) ∨ i / j < 2 ^ quotBits w) :
    ∃ s v, linDivision w a b = .ok s ∧ linVal s = some v ∧ ⌊v⌋ = i / j := by
  have jr : (0 : ℚ) < j := by exact_mod_cast hj
  have jr' : (j : ℝ) ≠ 0 := by exact_mod_cast hj.ne'
  have q0 : 0 ≤ i / j := Int.ediv_nonneg hi hj.le
  have qi : i / j ≤ i := Int.ediv_le_self j hi
  have hm := Int.emod_add_mul_ediv i j
  have m0 := Int.emod_nonneg i hj.ne'
  have m1 := Int.emod_lt_of_pos i hj
  generalize hq : i / j = q at *
  generalize i % j = r at *
  have bnd : |q| ≤ 2 ^ intBits w := by rw [abs_of_nonneg q0]; omega
  have ex : (LinOp.div a b).Exact ((i : ℝ) / j) := by
    have := LinOp.Exact.div (value_lin ha) (value_lin hb) (by simpa using jr')
    simpa using this
  have lo : (q : ℝ) ≤ (i : ℝ) / j := by
    rw [le_div_iff₀ (by exact_mod_cast hj)]
    exact_mod_cast (by nlinarith : q * j ≤ i)
  have fin : (∃ (t : T w) (u : ℚ), linVal t = some u ∧ (i : ℚ) ≤ u * j ∧ u < q + 1) → ∃ s v, linDivision w a b = .ok s ∧ linVal s = some v ∧ ⌊v⌋ = q := by
    rintro ⟨t, u, ht, h1, h2⟩
    refine floor_of ex bnd lo ht ?_ h2
    rw [div_le_iff₀ (by exact_mod_cast hj)]
    exact_mod_cast h1
  rcases eq_or_lt_of_le m0 with rfl | m2
  · obtain ⟨t, ht⟩ := lin_integers w q bnd
    exact fin ⟨t, q, ht, by exact_mod_cast (by nlinarith : i ≤ q * j), by linarith⟩
  rcases eq_or_lt_of_le q0 with rfl | q1
  · obtain ⟨t, u, ht, h1, h2⟩ := below_one w
    refine fin ⟨t, u, ht, ?_, by simpa using h2⟩
    -- i < j and i ≤ 2^I, hence i / j ≤ 1 - 2^-(I + 1)
    set e : ℚ := 2 ^ (-(intBits w + 1 : ℤ)) with he
    have e0 : 0 < e := by positivity
    have e1 : e * 2 ^ (intBits w + 1) = 1 := by
      rw [he, zpow_neg, ← Nat.cast_succ, zpow_natCast, inv_mul_cancel₀ (by positivity)]
    have i1 : (i : ℚ) ≤ 2 ^ intBits w := by exact_mod_cast hi'
    have i2 : (i : ℚ) + 1 ≤ j := by exact_mod_cast (by nlinarith : i + 1 ≤ j)
    have i0 : (0 : ℚ) ≤ i := by exact_mod_cast hi
    have l1 : e ≤ 1 := zpow_le_one_of_nonpos₀ (by norm_num) (by omega)
    have l2 : e * (i + 1) ≤ 1 := by
      have : (1 : ℚ) ≤ 2 ^ intBits w := one_le_pow₀ (by norm_num)
      calc e * (i + 1) ≤ e * 2 ^ (intBits w + 1) := by gcongr; rw [pow_succ]; linarith
        _ = 1 := e1
    calc (i : ℚ) ≤ (1 - e) * (i + 1) := by linarith
      _ ≤ (1 - e) * j := by gcongr
      _ ≤ u * j := by gcongr
  by_cases hw : w = .w8
  · subst hw
    have i8 : i ≤ 8 := hi'
    have j8 : j ≤ 8 := by nlinarith
    obtain ⟨i, rfl⟩ := Int.eq_ofNat_of_zero_le hi
    obtain ⟨j, rfl⟩ := Int.eq_ofNat_of_zero_le hj.le
    rw [linVal_unique ha (by simpa using int8_val i (by omega)), linVal_unique hb (by simpa using int8_val j (by omega)), ← hq]
    exact hasFloor_floor (int8_quot i (by omega) j (by omega) (by omega))
  -- the power of two from j on and the one above q
  set s := Nat.clog 2 j.toNat with hs
  set e := Nat.log 2 q.toNat with he
  have j2 : 2 ≤ j := by omega
  have s1 : j ≤ 2 ^ s := by
    have := Nat.le_pow_clog (b := 2) (by norm_num) j.toNat
    zify at this
    rwa [Int.toNat_of_nonneg hj.le] at this
  have s2 : 2 ^ (s - 1) < j := by
    have := Nat.pow_pred_clog_lt_self (b := 2) (by norm_num) (x := j.toNat) (by omega)
    zify at this
    rwa [Int.toNat_of_nonneg hj.le] at this
  have s0 : 1 ≤ s := Nat.clog_pos (by norm_num) (by omega)
  have e1 : 2 ^ e ≤ q := by
    have := Nat.pow_log_le_self 2 (x := q.toNat) (by omega)
    zify at this
    rwa [Int.toNat_of_nonneg q0] at this
  have e2 : q + 1 ≤ 2 ^ (e + 1) := by
    have := Nat.lt_pow_succ_log_self (b := 2) (by norm_num) q.toNat
    zify at this
    rw [Int.toNat_of_nonneg q0] at this
    exact this
  have b0 : (2 : ℤ) ^ (e + (s - 1)) < i := by
    calc (2 : ℤ) ^ (e + (s - 1)) = 2 ^ e * 2 ^ (s - 1) := pow_add ..
      _ ≤ q * 2 ^ (s - 1) := by gcongr
      _ < q * j := by gcongr
      _ ≤ i := by nlinarith
  have b1 : e + (s - 1) < intBits w := (pow_lt_pow_iff_right₀ (by norm_num : (1 : ℤ) < 2)).mp (b0.trans_le hi')
  obtain ⟨T1, T2, -⟩ := quot_tab w hw
  have ok : e + s + rg e ≤ w.n - 5 ∨ w = .w16 ∧ 7 ≤ e ∨ w = .w32 ∧ 15 ≤ e := by
    rcases hc with h | h | h
    · by_cases h7 : e < quotBits w
      · have := T2 e h7
        left; omega
      · cases w
        · exact absurd rfl hw
        · exact .inr (.inl ⟨rfl, not_lt.mp h7⟩)
        · exact .inr (.inr ⟨rfl, not_lt.mp h7⟩)
        · exact absurd rfl h
    · have := (pow_lt_pow_iff_right₀ (by norm_num : (1 : ℤ) < 2)).mp (b0.trans_le h)
      have := T1 e (by omega)
      left; omega
    · have := T2 e ((pow_lt_pow_iff_right₀ (by norm_num : (1 : ℤ) < 2)).mp (e1.trans_lt h))
      left; omega
  rcases ok with ok | ⟨rfl, h7⟩ | ⟨rfl, h15⟩
  rotate_left
  · -- 16 bits and a quotient from 128 on: the divisor is 2 or 3
    have q7 : (128 : ℤ) ≤ q := le_trans (by exact_mod_cast Nat.pow_le_pow_right (n := 2) (by norm_num) h7) e1
    have i9 : i ≤ 512 := hi'
    have j3 : j ≤ 3 := by nlinarith
    have h7 : e = 7 := by
      have q256 : q < 2 ^ 8 := by nlinarith
      have := (pow_lt_pow_iff_right₀ (by norm_num : (1 : ℤ) < 2)).mp (e1.trans_lt q256)
      omega
    rw [h7] at e1 e2
    by_cases hr : 2 * r ≤ j
    · obtain ⟨t, ht⟩ := just_below (w := .w16) hw (e := 7) (s := 1) e1 e2 (by decide +kernel)
      refine fin ⟨t, _, ht, ?_, by norm_num⟩
      have : 2 * (i : ℚ) ≤ (2 * q + 1) * j := by exact_mod_cast (by nlinarith : 2 * i ≤ (2 * q + 1) * j)
      norm_num
      linarith
    · obtain rfl : j = 3 := by omega
      obtain rfl : r = 2 := by omega
      obtain ⟨k, hk⟩ := Int.eq_ofNat_of_zero_le (by omega : 0 ≤ q - 128)
      obtain ⟨v, f⟩ := int16_quot k (by omega)
      have : i = ((3 * (k + 128) + 2 : ℕ) : ℤ) := by push_cast; omega
      rw [this] at ha
      rw [linVal_unique ha (by simpa using v), linVal_unique hb (b := 0x4a00#16) (by decide +kernel), show q = (k : ℤ) + 128 by omega]
      exact hasFloor_floor f
  · -- 32 bits and a quotient from 2^15 on: nearly nearest is enough
    have i24 : i ≤ 2 ^ 24 := hi'
    have b1 : e + (s - 1) < 24 := b1
    obtain ⟨d, hd⟩ : ∃ d, e + d = 23 := ⟨23 - e, by omega⟩
    have rge : ∀ e < 24, 15 ≤ e → rg (e : ℕ) = 4 := by decide +kernel
    obtain ⟨t, ht⟩ := just_below (w := .w32) hw (s := d) e1 e2 (by rw [rge e (by omega) h15, hd]; decide)
    by_cases hle : (i : ℚ) ≤ ((q : ℚ) + 1 - 2 ^ (-(d : ℤ))) * j
    · exact fin ⟨t, _, ht, hle, sub_lt_self _ (by positivity)⟩
    refine floor_of' ex bnd lo fun s v hs hv => ?_
    by_contra hge
    have ipos : (0 : ℚ) < i := by exact_mod_cast (by nlinarith : 0 < i)
    obtain ⟨s', hs', rs, sgn, near⟩ := (lin_arith_almost_partial .w32 (.inl rfl) a b _ _ ha hb).2.2.2 (div_pos ipos jr).ne'
    rw [show linDivision .w32 a b = .ok s from hs] at hs'
    cases hs'
    have z0 : (0 : ℚ) < 2 ^ (-(d : ℤ)) := by positivity
    have z1 : (2 : ℚ) ^ (-(d : ℤ)) ≤ 1 := zpow_le_one_of_nonpos₀ (by norm_num) (by omega)
    have qq : (1 : ℚ) ≤ q := by exact_mod_cast (by omega : 1 ≤ q)
    have tpos := regular_of_pos' ht (by linarith)
    have spos : s.msb = false := by
      have : ¬ ((i : ℚ) / j < 0) := not_lt.mpr (div_pos ipos jr).le
      simpa [this] using sgn
    have nr := near t tpos.1 (by rw [spos, tpos.2]) v _ hv ht
    set Q : ℚ := (i : ℚ) / j with hQ
    have hQj : Q * j = i := by rw [hQ, div_mul_cancel₀ _ jr.ne']
    have Q0 : 0 < Q := div_pos ipos jr
    have Qt : (q : ℚ) + 1 - 2 ^ (-(d : ℤ)) < Q := by
      rw [hQ, lt_div_iff₀ jr]
      exact not_le.mp hle
    have Qq : Q < q + 1 := by
      rw [hQ, div_lt_iff₀ jr]
      exact_mod_cast (by nlinarith : i < (q + 1) * j)
    rw [abs_of_nonneg (by linarith), abs_of_nonpos (by linarith), abs_of_pos Q0] at nr
    have key : 2 * ((q : ℚ) + 1 - Q) ≤ 2 ^ (-(d : ℤ)) + wideSlack .w32 * Q := by linarith
    have key : 2 * (((q : ℚ) + 1) * j - i) ≤ 2 ^ (-(d : ℤ)) * j + wideSlack .w32 * i := by
      rw [← hQj]
      nlinarith
    have g1 : (1 : ℚ) ≤ ((q : ℚ) + 1) * j - i := by exact_mod_cast (by nlinarith : 1 ≤ (q + 1) * j - i)
    have g2 : (2 : ℚ) ^ (-(d : ℤ)) * j ≤ 2 - 2 ^ (-(d : ℤ)) := by
      have jl : j + 1 ≤ 2 ^ (d + 1) := by
        have : (2 : ℤ) ^ e * j < 2 ^ e * 2 ^ (d + 1) := by
          rw [← pow_add, ← add_assoc, hd]
          calc (2 : ℤ) ^ e * j ≤ q * j := by gcongr
            _ < i := by nlinarith
            _ ≤ _ := i24
        exact lt_of_mul_lt_mul_left this (by positivity)
      have jl : (j : ℚ) + 1 ≤ 2 ^ (d + 1) := by exact_mod_cast jl
      have := mul_le_mul_of_nonneg_left jl z0.le
      have e3 : (2 : ℚ) ^ (-(d : ℤ)) * 2 ^ (d + 1) = 2 := by
        rw [pow_succ, ← mul_assoc, zpow_neg, zpow_natCast, inv_mul_cancel₀ (by positivity), one_mul]
      rw [e3] at this
      linarith
    have g3 : wideSlack .w32 * i ≤ 1 / 2 ^ 28 := by
      have : (i : ℚ) ≤ 2 ^ 24 := by exact_mod_cast i24
      rw [show wideSlack .w32 = 1 / 2 ^ 52 from rfl]
      norm_num at this ⊢
      linarith
    have g4 : (1 : ℚ) / 2 ^ 8 ≤ 2 ^ (-(d : ℤ)) := by
      rw [one_div, ← zpow_natCast, ← zpow_neg]
      exact zpow_le_zpow_right₀ (by norm_num) (by omega)
    have g5 : (1 : ℚ) / 2 ^ 28 < 1 / 2 ^ 8 := by norm_num
    linarith
  obtain ⟨t, ht⟩ := just_below (w := w) hw e1 e2 ok
  have z0 : (0 : ℚ) < 2 ^ (-(s : ℤ)) := by positivity
  refine fin ⟨t, _, ht, ?_, by linarith⟩
  have : (2 : ℚ) ^ (-(s : ℤ)) * j ≤ 1 := by
    rw [zpow_neg, zpow_natCast, inv_mul_le_one₀ (by positivity)]
    exact_mod_cast s1
  have : (i : ℚ) + 1 ≤ (q + 1) * j := by exact_mod_cast (by nlinarith : i + 1 ≤ (q + 1) * j)
  linarith

/-- The bound for square roots that is proved. -/
def rootMax : W → ℕ
  | .w8 => 7
  | .w16 => 2 ^ 9
  | .w32 => 2 ^ 24
  | .w64 => 2 ^ 54

theorem int8_root : ∀ i < 8, ∀ q < 3, q ^ 2 ≤ i → i < (q + 1) ^ 2 → hasFloor (q : ℕ) (linSquareRoot .w8 (int8 i)) = true := by decide +kernel

theorem int16_root : ∀ q < 23, 15 < q → linVal (int16 (min (q ^ 2 + 2 * q) 512)) = some ((min (q ^ 2 + 2 * q) 512 : ℕ) : ℚ) ∧
    hasFloor (q : ℕ) (linSquareRoot .w16 (int16 (min (q ^ 2 + 2 * q) 512))) = true := by decide +kernel

/-- C151: for integers `0 ≤ i ≤ 7`, `2^9`, `2^24`, `2^54` (for 16 and 32 bits the bound of C110) the integer part of the computed square root of 8, 16, 32, 64 bits is
the integer square root. -/
theorem lin_integer_sqrt_partial (w : W) (a : T w) (i : ℕ) (ha : linVal a = some (i : ℚ)) (hi : i ≤ rootMax w) :
    ∃ s v, linSquareRoot w a = .ok s ∧ linVal s = some v ∧ ⌊v⌋ = (Nat.sqrt i : ℤ) := by
  have h1 := Nat.sqrt_le' i
  have h2 := Nat.lt_succ_sqrt' i
  generalize Nat.sqrt i = q at *
  have va : value .lin a = some (i : ℝ) := by simpa using value_lin ha
  have ex := LinOp.Exact.sqrt va (Nat.cast_nonneg i)
  have lo : ((q : ℤ) : ℝ) ≤ Real.sqrt i := by
    rw [Int.cast_natCast]
    exact Real.le_sqrt_of_sq_le (by exact_mod_cast h1)
  have bnd : |(q : ℤ)| ≤ 2 ^ intBits w := by
    rw [Nat.abs_cast]
    have : q ≤ 2 ^ intBits w := (Nat.le_self_pow (by norm_num) q).trans (h1.trans (hi.trans (by cases w <;> decide)))
    exact_mod_cast this
  by_cases hsq : q ^ 2 = i
  · obtain ⟨t, ht⟩ := lin_integers w q bnd
    refine floor_of ex bnd lo ht ?_ (by linarith)
    rw [← hsq]
    push_cast
    rw [Real.sqrt_sq (Nat.cast_nonneg q)]
  by_cases hw : w = .w8
  · subst hw
    have hi : i ≤ 7 := hi
    rw [linVal_unique ha (int8_val i (by omega))]
    exact hasFloor_floor (int8_root i (by omega) q (by nlinarith) h1 h2)
  by_cases h16 : w = .w16 ∧ 256 ≤ i
  · obtain ⟨rfl, h16⟩ := h16
    have hi : i ≤ 512 := hi
    -- the largest number with this root
    obtain ⟨v, f⟩ := int16_root q (by nlinarith) (by nlinarith)
    have le : i ≤ min (q ^ 2 + 2 * q) 512 := le_min (by rw [Nat.succ_eq_add_one] at h2; nlinarith) hi
    generalize min (q ^ 2 + 2 * q) 512 = m at *
    obtain ⟨s', v', f1, f2, f3⟩ := hasFloor_floor f
    refine floor_of' ex bnd lo fun s x hs hx => ?_
    obtain ⟨u1, u2, g1, g2, o⟩ := lin_operations_ordered .w16 (.sqrt a) (.sqrt (int16 m)) _ _ ex (.sqrt (by simpa using value_lin v) (Nat.cast_nonneg m))
      (Real.sqrt_le_sqrt (by exact_mod_cast le))
    rw [hs] at g1
    cases g1
    rw [show (LinOp.sqrt (int16 m)).run = .ok s' from f1] at g2
    cases g2
    have := (Int.floor_eq_iff.mp f3).2
    exact lt_of_le_of_lt ((linVal_order hx f2).mp o) (by exact_mod_cast this)
  have hi : i < 2 ^ rootBits w := by
    cases w
    · exact absurd rfl hw
    · exact not_le.mp fun h => h16 ⟨rfl, h⟩
    · refine lt_of_le_of_ne hi fun h => hsq ?_
      subst h
      have h1 : q ^ 2 ≤ (2 ^ 12) ^ 2 := by rw [← pow_mul]; exact h1
      have h2 : (2 ^ 12) ^ 2 < (q + 1) ^ 2 := by rw [← pow_mul]; exact h2
      have := Nat.pow_le_pow_iff_left (by norm_num) |>.mp h1
      have := Nat.pow_lt_pow_iff_left (by norm_num) |>.mp h2
      obtain rfl : q = 2 ^ 12 := by omega
      rfl
    · refine lt_of_le_of_ne hi fun h => hsq ?_
      subst h
      have h1 : q ^ 2 ≤ (2 ^ 27) ^ 2 := by rw [← pow_mul]; exact h1
      have h2 : (2 ^ 27) ^ 2 < (q + 1) ^ 2 := by rw [← pow_mul]; exact h2
      have := Nat.pow_le_pow_iff_left (by norm_num) |>.mp h1
      have := Nat.pow_lt_pow_iff_left (by norm_num) |>.mp h2
      obtain rfl : q = 2 ^ 27 := by omega
      rfl
  have q0 : 0 < q := by
    refine Nat.pos_of_ne_zero fun h => ?_
    subst h
    simp at h2
    exact hsq (by simp [h2])
  set e := Nat.log 2 q with he
  have e1 : 2 ^ e ≤ q := Nat.pow_log_le_self 2 q0.ne'
  have e2 : q + 1 ≤ 2 ^ (e + 1) := Nat.lt_pow_succ_log_self (b := 2) (by norm_num) q
  have b1 : 2 * e < rootBits w := by
    refine (Nat.pow_lt_pow_iff_right (by norm_num : 1 < 2)).mp (lt_of_le_of_lt ?_ hi)
    rw [mul_comm, pow_mul]
    exact (Nat.pow_le_pow_left e1 2).trans h1
  have eI : e < intBits w := by
    have : rootBits w ≤ intBits w := by cases w <;> decide
    omega
  obtain ⟨t, ht⟩ := just_below (w := w) hw (q := q) (e := e) (s := e + 2) (by exact_mod_cast e1) (by exact_mod_cast e2) ((quot_tab w hw).2.2 e eI b1)
  have z0 : (0 : ℚ) < 2 ^ (-((e + 2 : ℕ) : ℤ)) := by positivity
  have z1 : ((q : ℚ) + 1) * 2 ^ (-((e + 2 : ℕ) : ℤ)) * 2 ≤ 1 := by
    rw [zpow_neg, zpow_natCast, ← div_eq_mul_inv, div_mul_eq_mul_div, div_le_one (by positivity), pow_succ (n := e + 1)]
    have : ((q : ℚ) + 1) ≤ 2 ^ (e + 1) := by exact_mod_cast e2
    linarith
  refine floor_of ex bnd lo ht ?_ (by linarith)
  have i1 : (i : ℚ) + 1 ≤ (q + 1) ^ 2 := by exact_mod_cast h2
  have q1 : (0 : ℚ) ≤ q := Nat.cast_nonneg q
  have u1 : (2 : ℚ) ^ (-((e + 2 : ℕ) : ℤ)) ≤ 1 := zpow_le_one_of_nonpos₀ (by norm_num) (by omega)
  refine Real.sqrt_le_iff.mpr ⟨?_, ?_⟩
  · exact_mod_cast (by push_cast at u1 ⊢; linarith : (0 : ℚ) ≤ ((q : ℤ) : ℚ) + 1 - 2 ^ (-((e + 2 : ℕ) : ℤ)))
  · exact_mod_cast (by push_cast at *; nlinarith : (i : ℚ) ≤ (((q : ℤ) : ℚ) + 1 - 2 ^ (-((e + 2 : ℕ) : ℤ))) ^ 2)

/-- C151 fails within the bound of C110: with 64 bits, (2^55 - 2^31 + 2^24 - 2) / (2^24 - 1) is below 2^31 + 1 but gives 2^31 + 1; with 8 bits, the square root of 8 gives 3. -/
theorem lin_integer_quotient_refuted : (∃ (a b s : T .w64), linVal a = some ((2 ^ 55 - 2 ^ 31 + 2 ^ 24 - 2 : ℤ) : ℚ) ∧ linVal b = some ((2 ^ 24 - 1 : ℤ) : ℚ) ∧
    linDivision .w64 a b = .ok s ∧ linVal s = some ((2 ^ 31 + 1 : ℤ) : ℚ) ∧ (2 ^ 55 - 2 ^ 31 + 2 ^ 24 - 2 : ℤ) / (2 ^ 24 - 1) = 2 ^ 31 ∧
    (2 ^ 55 - 2 ^ 31 + 2 ^ 24 - 2 : ℤ) ≤ 2 ^ intBits .w64) ∧
    (∃ a s : T .w8, linVal a = some 8 ∧ linSquareRoot .w8 a = .ok s ∧ linVal s = some 3) :=
  ⟨⟨0x6dffffff80fffffe#64, 0x647fffff00000000#64, 0x6800000000800000#64, by decide +kernel⟩, 0x50#8, 0x4a#8, by decide +kernel⟩

/-- Non-vacuity: 255 / 16 with 16 bits has the integer part 15, the square root of 200 has the integer part 14. -/
example : ∃ s v, linDivision .w16 0x58fe#16 0x5200#16 = .ok s ∧ linVal s = some v ∧ ⌊v⌋ = 255 / 16 :=
  lin_integer_quotient_partial .w16 _ _ 255 16 (by decide +kernel) (by decide +kernel) (by norm_num) (by decide) (by norm_num) (.inl (by decide))

example : ∃ s v, linSquareRoot .w16 0x5890#16 = .ok s ∧ linVal s = some v ∧ ⌊v⌋ = (Nat.sqrt 200 : ℤ) :=
  lin_integer_sqrt_partial .w16 _ 200 (by decide +kernel) (by decide)

end Takum
