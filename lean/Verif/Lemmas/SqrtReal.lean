import Verif.Sqrt
import Mathlib.Analysis.SpecialFunctions.Pow.Real

/-! # The rational algorithm for the square root rounds the real square root -/

namespace Takum

theorem log_sqrt {q : ℚ} (hq : 0 < q) : Int.log 2 (Real.sqrt q) = Int.log 2 q / 2 := by
  have hs : 0 < Real.sqrt q := Real.sqrt_pos.mpr (by exact_mod_cast hq)
  have h1 := Int.zpow_log_le_self (b := 2) (by norm_num) hq
  have h2 := Int.lt_zpow_succ_log_self (b := 2) (by norm_num) q
  set L := Int.log 2 q with hL
  have e1 : 2 * (L / 2) ≤ L := by omega
  have e2 : L + 1 ≤ 2 * (L / 2 + 1) := by omega
  have k1 : ((2 : ℝ) ^ (L / 2)) ^ 2 ≤ q := by
    have : (2 : ℚ) ^ (2 * (L / 2)) ≤ q := le_trans (zpow_le_zpow_right₀ (by norm_num) e1) (by exact_mod_cast h1)
    rw [← zpow_natCast, ← zpow_mul, mul_comm]
    have h := (Rat.cast_le (K := ℝ)).mpr this
    push_cast at h; exact h
  have k2 : (q : ℝ) < ((2 : ℝ) ^ (L / 2 + 1)) ^ 2 := by
    have : q < (2 : ℚ) ^ (2 * (L / 2 + 1)) := lt_of_lt_of_le (by exact_mod_cast h2) (zpow_le_zpow_right₀ (by norm_num) e2)
    rw [← zpow_natCast, ← zpow_mul, mul_comm]
    have h := (Rat.cast_lt (K := ℝ)).mpr this
    push_cast at h; exact h
  apply le_antisymm
  · have : Real.sqrt q < (2 : ℝ) ^ (L / 2 + 1) := by
      rw [Real.sqrt_lt' (by positivity)]; exact k2
    have := (Int.lt_zpow_iff_log_lt (b := 2) (by norm_num) hs).mp (by exact_mod_cast this)
    omega
  · apply (Int.zpow_le_iff_le_log (b := 2) (by norm_num) hs).mp
    have : (2 : ℝ) ^ (L / 2) ≤ Real.sqrt q := Real.le_sqrt_of_sq_le k1
    exact_mod_cast this

/-- `sqrtQ` is the correctly rounded square root. -/
theorem Fmt.sqrtQ_eq (F : Fmt) {q : ℚ} (hq : 0 < q) : F.sqrtQ q = F.rq (Real.sqrt q) := by
  have hs : 0 < Real.sqrt q := Real.sqrt_pos.mpr (by exact_mod_cast hq)
  have he : F.qexp (Real.sqrt q) = max F.emin (Int.log 2 q / 2 - F.prec + 1) := by
    unfold Fmt.qexp; rw [abs_of_pos hs, log_sqrt hq, max_comm]; congr 1; ring
  unfold Fmt.sqrtQ Fmt.rq
  rw [he]
  generalize max F.emin (Int.log 2 q / 2 - F.prec + 1) = e
  set x : ℚ := q / 4 ^ e with hx
  have x0 : 0 < x := by rw [hx]; positivity
  have hy : Real.sqrt q / (2 : ℝ) ^ e = Real.sqrt x := by
    rw [hx]; push_cast
    rw [Real.sqrt_div (by exact_mod_cast hq.le)]
    congr 1
    rw [show (4 : ℝ) ^ e = ((2 : ℝ) ^ e) ^ 2 by rw [← zpow_natCast, ← zpow_mul, mul_comm, zpow_mul]; norm_num]
    rw [Real.sqrt_sq (by positivity)]
  rw [hy]
  simp only []
  congr 1
  have hf : ((⌊x⌋.toNat : ℕ) : ℤ) = ⌊x⌋ := Int.toNat_of_nonneg (Int.floor_nonneg.mpr x0.le)
  set n := ⌊x⌋.toNat with hn
  set k := n.sqrt with hk
  have s1 : k * k ≤ n := Nat.sqrt_le n
  have s2 : n < (k + 1) * (k + 1) := Nat.lt_succ_sqrt n
  have f1 : ((n : ℕ) : ℚ) ≤ x := by
    have := Int.floor_le x; rw [← hf] at this; exact_mod_cast this
  have f2 : x < (n : ℚ) + 1 := by
    have := Int.lt_floor_add_one x; rw [← hf] at this; exact_mod_cast this
  have r1 : ((k : ℚ)) ^ 2 ≤ x := by
    refine le_trans ?_ f1; rw [sq]; exact_mod_cast s1
  have r2 : x < ((k : ℚ) + 1) ^ 2 := by
    refine lt_of_lt_of_le f2 ?_; rw [sq]; exact_mod_cast s2
  have xr : (0 : ℝ) ≤ x := by exact_mod_cast x0.le
  have t1 : (k : ℝ) ≤ Real.sqrt x := Real.le_sqrt_of_sq_le (by exact_mod_cast r1)
  have t2 : Real.sqrt x < (k : ℝ) + 1 := by
    rw [Real.sqrt_lt' (by positivity)]; exact_mod_cast r2
  symm
  have key : rne (Real.sqrt (x : ℝ)) = ((if ((k : ℚ) + 1 / 2) ^ 2 < x ∨ ((k : ℚ) + 1 / 2) ^ 2 = x ∧ k % 2 = 1 then k + 1 else k : ℕ) : ℤ) := by
    apply IsRne.eq
    unfold IsRne
    rcases lt_trichotomy (((k : ℚ) + 1 / 2) ^ 2) x with h | h | h
    · rw [if_pos (Or.inl h)]
      left
      have : (k : ℝ) + 1 / 2 < Real.sqrt x := by
        rw [Real.lt_sqrt (by positivity)]
        have h' := (Rat.cast_lt (K := ℝ)).mpr h
        push_cast at h'; exact h'
      push_cast
      rw [abs_lt]; constructor <;> linarith
    · have e3 : Real.sqrt x = (k : ℝ) + 1 / 2 := by
        rw [← h]; push_cast; exact Real.sqrt_sq (by positivity)
      by_cases hp : k % 2 = 1
      · rw [if_pos (Or.inr ⟨h, hp⟩)]
        right
        rw [e3]; push_cast
        refine ⟨?_, by omega⟩
        rw [show (k : ℝ) + 1 / 2 - (k + 1) = -(1 / 2) by ring, abs_neg, abs_of_pos (by norm_num)]
      · rw [if_neg (by rintro (h' | ⟨_, h'⟩); · exact absurd h' (by rw [h]; exact lt_irrefl _)
                       · exact hp h')]
        right
        rw [e3]
        refine ⟨?_, by omega⟩
        push_cast
        rw [show (k : ℝ) + 1 / 2 - k = 1 / 2 by ring, abs_of_pos (by norm_num)]
    · rw [if_neg (by rintro (h' | ⟨h', _⟩) <;> linarith)]
      left
      have : Real.sqrt x < (k : ℝ) + 1 / 2 := by
        rw [Real.sqrt_lt' (by positivity)]
        have h' := (Rat.cast_lt (K := ℝ)).mpr h
        push_cast at h'; exact h'
      push_cast
      rw [abs_lt]; constructor <;> linarith
  rw [key]; rfl

theorem Fmt.sqrtQ_mono (F : Fmt) (hp : 1 ≤ F.prec) {x y : ℚ} (hx : 0 < x) (h : x ≤ y) : F.sqrtQ x ≤ F.sqrtQ y := by
  rw [F.sqrtQ_eq hx, F.sqrtQ_eq (hx.trans_le h)]
  exact F.rq_mono hp (Real.sqrt_le_sqrt (by exact_mod_cast h))

end Takum
