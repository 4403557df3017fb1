import Verif.Lemmas.InvCheck

/-!
# Inverses of 32-bit linear takums are not next to the middle between two takums
-/

namespace Takum
open Spec

theorem rem_cases {N j V n : ℕ} (hj : j < V) (hj0 : 0 < j) (h : n * V + j = N ∨ n * V = N + j) : N % V = j ∨ N % V + j = V := by
  rcases h with h | h
  · left; rw [← h, Nat.mul_comm, Nat.mul_add_mod, Nat.mod_eq_of_lt hj]
  · right
    have hn : 0 < n := by
      rcases Nat.eq_zero_or_pos n with h0 | h0
      · rw [h0, Nat.zero_mul] at h; omega
      · exact h0
    obtain ⟨m, rfl⟩ : ∃ m, n = m + 1 := ⟨n - 1, by omega⟩
    have : N = V * m + (V - j) := by
      have : (m + 1) * V = V * m + V := by ring
      omega
    rw [this, Nat.mul_add_mod, Nat.mod_eq_of_lt (by omega)]; omega

theorem no_div {N j b a V n : ℕ} (h : noDivisor N j b a = true) (hj : j < V) (hj0 : 0 < j) (h1 : a ≤ V) (h2 : V < a + 2 ^ (b + 1))
    (h3 : V % 2 = a % 2) : ¬ (n * V + j = N ∨ n * V = N + j) := by
  intro hn
  rw [pow_succ] at h2
  have := noDivisor_spec h (i := (V - a) / 2) (by omega)
  have e : a + 2 * ((V - a) / 2) = V := by omega
  rw [e] at this
  rcases rem_cases hj hj0 hn with h | h
  · exact this.1 h
  · exact this.2 h

theorem odd_of_mul {n V N : ℕ} (h : n * V = N) (hN : N % 2 = 1) : V % 2 = 1 := by
  have : (n * V) % 2 = 1 := by rw [h]; exact hN
  rcases Nat.mod_two_eq_zero_or_one V with h0 | h0
  · rw [Nat.mul_mod, h0] at this; simp at this
  · exact h0

theorem dvd_of_odd_mul {n V N a : ℕ} (hn : n % 2 = 1) (h : n * V = 2 ^ a * N) : ∃ V', V = 2 ^ a * V' ∧ n * V' = N := by
  have hc : Nat.Coprime (2 ^ a) n := by
    apply Nat.Coprime.pow_left
    rw [Nat.coprime_two_left, Nat.odd_iff]; exact hn
  obtain ⟨V', rfl⟩ := hc.dvd_of_dvd_mul_left ⟨N, h⟩
  refine ⟨V', rfl, ?_⟩
  have : 2 ^ a * (n * V') = 2 ^ a * N := by rw [← h]; ring
  exact Nat.eq_of_mul_eq_mul_left (by positivity) this

/-- From integers to natural numbers. -/
theorem split_sign {n V N t : ℕ} {s : ℤ} (hs : s = 1 ∨ s = -1) (h : (n : ℤ) * V = N - s * t) : n * V + t = N ∨ n * V = N + t := by
  rcases hs with rfl | rfl
  · left; have : ((n * V + t : ℕ) : ℤ) = (N : ℕ) := by push_cast; linarith
    exact_mod_cast this
  · right; have : ((n * V : ℕ) : ℤ) = (N + t : ℕ) := by push_cast; linarith
    exact_mod_cast this

theorem no_mid_27 {V n t : ℕ} (hV1 : 2 ^ 27 < V) (hV2 : V < 2 ^ 28) (hn : n % 2 = 1)
    (h1 : 2048 * (t * 2 ^ 25) ≤ 2049 * V) (h2 : 2047 * V ≤ 2048 * (t * 2 ^ 25)) : ¬ (n * V + t = 2 ^ 56 ∨ n * V = 2 ^ 56 + t) := by
  intro h
  have t4 : 4 ≤ t := by omega
  have t8 : t ≤ 8 := by omega
  interval_cases t
  · -- 4
    have h' : n * V = 2 ^ 2 * (2 ^ 54 - 1) ∨ n * V = 2 ^ 2 * (2 ^ 54 + 1) := by
      rcases h with h | h
      · left; norm_num at h ⊢; omega
      · right; norm_num at h ⊢; omega
    have : ∃ V', V = 2 ^ 2 * V' ∧ (n * V' + 1 = 2 ^ 54 ∨ n * V' = 2 ^ 54 + 1) := by
      rcases h' with h' | h'
      · obtain ⟨V', a, b⟩ := dvd_of_odd_mul hn h'
        exact ⟨V', a, Or.inl (by rw [b]; norm_num)⟩
      · obtain ⟨V', a, b⟩ := dvd_of_odd_mul hn h'
        exact ⟨V', a, Or.inr b⟩
    obtain ⟨V', rfl, hV⟩ := this
    have ho : V' % 2 = 1 := by
      rcases hV with h | h
      · exact odd_of_mul (n := n) (N := 2 ^ 54 - 1) (by omega) (by norm_num)
      · exact odd_of_mul h (by norm_num)
    exact no_div chk4 (by omega) (by norm_num) (by omega) (by norm_num; omega) (by norm_num; omega) hV
  · have ho : V % 2 = 1 := by
      rcases h with h | h
      · exact odd_of_mul (n := n) (N := 2 ^ 56 - 5) (by omega) (by norm_num)
      · exact odd_of_mul h (by norm_num)
    exact no_div chk5 (by omega) (by norm_num) (by norm_num; omega) (by norm_num; omega) (by norm_num; omega) h
  · have h' : n * V = 2 ^ 1 * (2 ^ 55 - 3) ∨ n * V = 2 ^ 1 * (2 ^ 55 + 3) := by
      rcases h with h | h
      · left; norm_num at h ⊢; omega
      · right; norm_num at h ⊢; omega
    have : ∃ V', V = 2 ^ 1 * V' ∧ (n * V' + 3 = 2 ^ 55 ∨ n * V' = 2 ^ 55 + 3) := by
      rcases h' with h' | h'
      · obtain ⟨V', a, b⟩ := dvd_of_odd_mul hn h'
        exact ⟨V', a, Or.inl (by rw [b]; norm_num)⟩
      · obtain ⟨V', a, b⟩ := dvd_of_odd_mul hn h'
        exact ⟨V', a, Or.inr b⟩
    obtain ⟨V', rfl, hV⟩ := this
    have ho : V' % 2 = 1 := by
      rcases hV with h | h
      · exact odd_of_mul (n := n) (N := 2 ^ 55 - 3) (by omega) (by norm_num)
      · exact odd_of_mul h (by norm_num)
    exact no_div chk6 (by omega) (by norm_num) (by norm_num; omega) (by norm_num; omega) (by norm_num; omega) hV
  · have ho : V % 2 = 1 := by
      rcases h with h | h
      · exact odd_of_mul (n := n) (N := 2 ^ 56 - 7) (by omega) (by norm_num)
      · exact odd_of_mul h (by norm_num)
    exact no_div chk7 (by omega) (by norm_num) (by norm_num; omega) (by norm_num; omega) (by norm_num; omega) h
  · have h' : n * V = 2 ^ 3 * (2 ^ 53 - 1) ∨ n * V = 2 ^ 3 * (2 ^ 53 + 1) := by
      rcases h with h | h
      · left; norm_num at h ⊢; omega
      · right; norm_num at h ⊢; omega
    have : ∃ V', V = 2 ^ 3 * V' ∧ (n * V' + 1 = 2 ^ 53 ∨ n * V' = 2 ^ 53 + 1) := by
      rcases h' with h' | h'
      · obtain ⟨V', a, b⟩ := dvd_of_odd_mul hn h'
        exact ⟨V', a, Or.inl (by rw [b]; norm_num)⟩
      · obtain ⟨V', a, b⟩ := dvd_of_odd_mul hn h'
        exact ⟨V', a, Or.inr b⟩
    obtain ⟨V', rfl, hV⟩ := this
    have ho : V' % 2 = 1 := by
      rcases hV with h | h
      · exact odd_of_mul (n := n) (N := 2 ^ 53 - 1) (by omega) (by norm_num)
      · exact odd_of_mul h (by norm_num)
    exact no_div chk8 (by omega) (by norm_num) (by norm_num; omega) (by norm_num; omega) (by norm_num; omega) hV

theorem no_mid_26 {V n t : ℕ} (hV1 : 2 ^ 26 < V) (hV2 : V < 2 ^ 27) (hn : n % 2 = 1)
    (h1 : 2048 * (t * 2 ^ 26) ≤ 2049 * V) (h2 : 2047 * V ≤ 2048 * (t * 2 ^ 26)) : ¬ (n * V + t = 2 ^ 54 ∨ n * V = 2 ^ 54 + t) := by
  intro h
  have t4 : 1 ≤ t := by omega
  have t8 : t ≤ 2 := by omega
  interval_cases t
  · have ho : V % 2 = 1 := by
      rcases h with h | h
      · exact odd_of_mul (n := n) (N := 2 ^ 54 - 1) (by omega) (by norm_num)
      · exact odd_of_mul h (by norm_num)
    exact no_div chk1 (by omega) (by norm_num) (by norm_num; omega) (by norm_num; omega) (by norm_num; omega) h
  · have h' : n * V = 2 ^ 1 * (2 ^ 53 - 1) ∨ n * V = 2 ^ 1 * (2 ^ 53 + 1) := by
      rcases h with h | h
      · left; norm_num at h ⊢; omega
      · right; norm_num at h ⊢; omega
    have : ∃ V', V = 2 ^ 1 * V' ∧ (n * V' + 1 = 2 ^ 53 ∨ n * V' = 2 ^ 53 + 1) := by
      rcases h' with h' | h'
      · obtain ⟨V', a, b⟩ := dvd_of_odd_mul hn h'
        exact ⟨V', a, Or.inl (by rw [b]; norm_num)⟩
      · obtain ⟨V', a, b⟩ := dvd_of_odd_mul hn h'
        exact ⟨V', a, Or.inr b⟩
    obtain ⟨V', rfl, hV⟩ := this
    have ho : V' % 2 = 1 := by
      rcases hV with h | h
      · exact odd_of_mul (n := n) (N := 2 ^ 53 - 1) (by omega) (by norm_num)
      · exact odd_of_mul h (by norm_num)
    exact no_div chk2 (by omega) (by norm_num) (by norm_num; omega) (by norm_num; omega) (by norm_num; omega) hV

/-- The middle between two takums of `p` mantissa bits is an odd number of `p + 2` bits. -/
theorem no_mid {p V n : ℕ} {s : ℤ} (hp : p ≤ 27) (hV1 : 2 ^ p < V) (hV2 : V < 2 ^ (p + 1)) (hn : n % 2 = 1) (hs : s = 1 ∨ s = -1)
    (h : 2 ^ 11 * |2 ^ (p + 54) - ((n : ℤ) * 2 ^ (52 - p) + s) * V| ≤ V) : False := by
  set J : ℤ := 2 ^ (2 * p + 2) - n * V with hJ
  have e : (2 : ℤ) ^ (p + 54) - ((n : ℤ) * 2 ^ (52 - p) + s) * V = J * 2 ^ (52 - p) - s * V := by
    rw [hJ, show p + 54 = (2 * p + 2) + (52 - p) by omega, pow_add]; ring
  rw [e] at h
  -- with the sign of `s`
  have e2 : |J * 2 ^ (52 - p) - s * V| = |(s * J) * 2 ^ (52 - p) - V| := by
    rcases hs with rfl | rfl
    · simp
    · rw [← abs_neg]; congr 1; ring
  rw [e2] at h
  have hnV : (n : ℤ) * V = 2 ^ (2 * p + 2) - s * (s * J) := by
    rcases hs with rfl | rfl <;> rw [hJ] <;> ring
  set t := s * J with ht
  obtain ⟨h1, h2⟩ := abs_le.mp (show |t * 2 ^ (52 - p) - V| ≤ (V : ℤ) by
    have := abs_nonneg (t * 2 ^ (52 - p) - (V : ℤ)); norm_num at h; omega)
  have hpos : (0 : ℤ) < 2 ^ (52 - p) := by positivity
  have ht0 : 0 ≤ t := by
    by_contra hc
    have : t * 2 ^ (52 - p) ≤ (-1) * 2 ^ (52 - p) := mul_le_mul_of_nonneg_right (by omega) hpos.le
    omega
  have tne : t ≠ 0 := by
    intro h0
    rw [h0, zero_mul, zero_sub, abs_neg, Nat.abs_cast] at h
    have : 0 < V := lt_trans (by positivity) hV1
    norm_num at h; omega
  by_cases hp25 : p ≤ 25
  · have hb : (2 : ℤ) ^ (52 - p) ≤ t * 2 ^ (52 - p) := le_mul_of_one_le_left hpos.le (by omega)
    have hc : (2 : ℤ) ^ (p + 2) ≤ 2 ^ (52 - p) := pow_le_pow_right₀ (by norm_num) (by omega)
    have hd : (V : ℤ) < 2 ^ (p + 1) := by exact_mod_cast hV2
    rw [show p + 2 = (p + 1) + 1 by ring, pow_succ] at hc
    omega
  · obtain ⟨T, hT⟩ := Int.eq_ofNat_of_zero_le ht0
    rw [hT] at h hnV
    have hm := split_sign hs (N := 2 ^ (2 * p + 2)) (by push_cast; exact hnV)
    obtain ⟨g1, g2⟩ := abs_le.mp (le_refl |((T : ℕ) : ℤ) * 2 ^ (52 - p) - (V : ℤ)|)
    rcases (by omega : p = 26 ∨ p = 27) with rfl | rfl
    · refine no_mid_26 hV1 hV2 hn ?_ ?_ hm
      · norm_num at h g1 g2 ⊢; omega
      · norm_num at h g1 g2 ⊢; omega
    · refine no_mid_27 hV1 hV2 hn ?_ ?_ hm
      · norm_num at h g1 g2 ⊢; omega
      · norm_num at h g1 g2 ⊢; omega

end Takum
