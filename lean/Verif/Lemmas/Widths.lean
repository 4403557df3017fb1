import Verif.Lemmas.Inversion

/-! # Lemmas for conversions between widths -/

namespace Takum
open Spec

theorem logVal_congr {n n' : ℕ} (hn : 5 ≤ n) (hn' : 5 ≤ n') {t : BitVec n} {v : BitVec n'}
    (hm : v.msb = t.msb) (hp : pos v = pos t) : logVal v = logVal t ∧ linVal v = linVal t ∧
      (v = nar n' ↔ t = nar n) ∧ (v = 0#n' ↔ t = 0#n) ∧ ell v = ell t := by
  have hl : low v = 0 ↔ low t = 0 := by
    have a : pos v = 0 ↔ low v = 0 := by unfold pos; simp
    have b : pos t = 0 ↔ low t = 0 := by unfold pos; simp
    rw [← a, ← b, hp]
  have c0 : ∀ {n : ℕ} (hn : 5 ≤ n) (t : BitVec n), t = 0#n ↔ t.msb = false ∧ low t = 0 := by
    intro n hn t
    constructor
    · intro h; subst h; constructor
      · simp
      · unfold low; simp
    · rintro ⟨h1, h2⟩
      have := eq_mkT (by omega) t
      rw [h1, h2, ← zero_eq] at this; exact this
  have c1 : ∀ {n : ℕ} (hn : 5 ≤ n) (t : BitVec n), t = nar n ↔ t.msb = true ∧ low t = 0 := by
    intro n hn t
    constructor
    · intro h; subst h
      rw [nar_eq]; exact ⟨mkT_msb (by omega) _ (by positivity), mkT_low (by omega) _ (by positivity)⟩
    · rintro ⟨h1, h2⟩
      have := eq_mkT (by omega) t
      rw [h1, h2, ← nar_eq] at this; exact this
  have i0 : v = 0#n' ↔ t = 0#n := by rw [c0 hn', c0 hn, hm, hl]
  have i1 : v = nar n' ↔ t = nar n := by rw [c1 hn', c1 hn, hm, hl]
  have he : ell v = ell t := by rw [ell_sg hn', ell_sg hn, hm, hp]
  refine ⟨?_, ?_, i1, i0, he⟩
  · by_cases h : t = nar n
    · unfold logVal; rw [if_pos h, if_pos (i1.mpr h)]
    · rw [logVal_val (by omega) h, logVal_val (by omega) (fun e => h (i1.mp e))]
      unfold val; simp only [i0, he, hm]
  · by_cases h : t = nar n
    · unfold linVal; rw [if_pos h, if_pos (i1.mpr h)]
    · rw [linVal_val (by omega) h, linVal_val (by omega) (fun e => h (i1.mp e))]
      unfold val; simp only [i0, he, hm]

theorem pos_of_low_sub {n : ℕ} (hn : 5 ≤ n) {t v : BitVec n} (hl : low v = 2 ^ (n - 1) - low t) :
    pos v = 16 - pos t := by
  have hW : (0 : ℚ) < ((2 ^ (n - 5) : ℕ) : ℚ) := by positivity
  unfold pos
  rw [hl, Nat.cast_sub (low_lt t).le, pow16 hn, Nat.cast_mul, sub_div, mul_div_assoc, div_self hW.ne']
  norm_num

theorem nearK_nearK {b c : ℕ} (hc : 8 ≤ c) (h : c < b) {u : ℚ} (h0 : 0 < u) (h16 : u < 16) :
    |(nearK c ((nearK b u : ℚ) / ((2 ^ (b - 5) : ℕ) : ℚ)) : ℤ) - nearK c u| ≤ 1 ∧
      (nearK b u % 2 ^ (b - c) ≠ 2 ^ (b - c - 1) →
        nearK c ((nearK b u : ℚ) / ((2 ^ (b - 5) : ℕ) : ℚ)) = nearK c u) := by
  set k := nearK b u with hk
  have hp : (2 ^ (b - 5) : ℕ) = 2 ^ (c - 5) * 2 ^ (b - c) := by rw [← pow_add]; congr 1; omega
  obtain ⟨E, hE⟩ : ∃ E : ℕ, 2 ^ (b - c) = 2 * E ∧ 2 ^ (b - c - 1) = E ∧ 1 ≤ E :=
    ⟨2 ^ (b - c - 1), by rw [← pow_succ']; congr 1; omega, rfl, Nat.one_le_two_pow⟩
  obtain ⟨hE1, hE2, hE3⟩ := hE
  have hEq : (1 : ℚ) ≤ E := by exact_mod_cast hE3
  have hcq : (0 : ℚ) < ((2 ^ (c - 5) : ℕ) : ℚ) := by positivity
  set Y := u * ((2 ^ (b - 5) : ℕ) : ℚ) with hY
  have eu : u * ((2 ^ (c - 5) : ℕ) : ℚ) = Y / (2 * E) := by
    rw [hY, hp, hE1]; push_cast; field_simp
  have ek : (k : ℚ) / ((2 ^ (b - 5) : ℕ) : ℚ) * ((2 ^ (c - 5) : ℕ) : ℚ) = k / (2 * E) := by
    rw [hp, hE1]; push_cast; field_simp
  have hY0 : 0 < Y := by positivity
  have hB : ((2 ^ (b - 1) : ℕ) : ℚ) = 16 * ((2 ^ (b - 5) : ℕ) : ℚ) := by rw [pow16 (by omega)]; push_cast; ring
  have hY1 : Y < ((2 ^ (b - 1) : ℕ) : ℚ) := by
    rw [hB, hY]; exact mul_lt_mul_of_pos_right h16 (by positivity)
  have hkm := kMax_add_one b
  have hkm1 := kMax_pos (by omega : 2 ≤ b)
  have hkr : (k : ℤ) = max 1 (min (rne Y) (kMax b : ℤ)) := by rw [hk]; unfold nearK; rw [← hY]; omega
  have r0 : 0 ≤ rne Y := le_rne_of_le (by exact_mod_cast hY0.le)
  have r1 : rne Y ≤ (2 ^ (b - 1) : ℕ) := rne_le_of_le (by exact_mod_cast hY1.le)
  have a1 := sub_rne_le Y
  have a2 := neg_half_le_sub_rne Y
  have hd : |(k : ℚ) - Y| ≤ 1 := by
    rw [abs_le]
    have c1 : (k : ℤ) = rne Y ∨ ((k : ℤ) = 1 ∧ rne Y = 0) ∨ ((k : ℤ) = kMax b ∧ rne Y = kMax b + 1) := by
      omega
    rcases c1 with e | ⟨e, e'⟩ | ⟨e, e'⟩
    · have : (k : ℚ) = rne Y := by exact_mod_cast e
      constructor <;> linarith
    · have : (k : ℚ) = 1 := by exact_mod_cast e
      have e2 : ((rne Y : ℤ) : ℚ) = 0 := by exact_mod_cast e'
      constructor <;> linarith
    · have : (k : ℚ) = kMax b := by exact_mod_cast e
      have e2 : ((rne Y : ℤ) : ℚ) = kMax b + 1 := by exact_mod_cast e'
      have e3 : ((2 ^ (b - 1) : ℕ) : ℚ) = kMax b + 1 := by exact_mod_cast hkm.symm
      constructor <;> linarith
  have hd2 : |(k : ℚ) / (2 * E) - Y / (2 * E)| ≤ 1 / 2 := by
    rw [← sub_div, abs_div, abs_of_pos (show (0 : ℚ) < 2 * E by linarith), div_le_iff₀ (by linarith)]
    linarith
  have key : |rne ((k : ℚ) / (2 * E)) - rne (Y / (2 * E))| ≤ 1 := by
    have b1 := sub_rne_le ((k : ℚ) / (2 * E))
    have b2 := neg_half_le_sub_rne ((k : ℚ) / (2 * E))
    have b3 := sub_rne_le (Y / (2 * E))
    have b4 := neg_half_le_sub_rne (Y / (2 * E))
    rw [abs_le] at hd2
    rw [abs_le]
    constructor
    · by_contra hc
      push Not at hc
      have : ((rne ((k : ℚ) / (2 * E)) : ℤ) : ℚ) - (rne (Y / (2 * E)) : ℤ) ≤ -2 := by
        exact_mod_cast (by omega : rne ((k : ℚ) / (2 * E)) - rne (Y / (2 * E)) ≤ -2)
      linarith
    · by_contra hc
      push Not at hc
      have : (2 : ℚ) ≤ ((rne ((k : ℚ) / (2 * E)) : ℤ) : ℚ) - (rne (Y / (2 * E)) : ℤ) := by
        exact_mod_cast (by omega : 2 ≤ rne ((k : ℚ) / (2 * E)) - rne (Y / (2 * E)))
      linarith
  refine ⟨?_, ?_⟩
  · unfold nearK
    rw [ek, eu]
    rw [abs_le] at key ⊢
    omega
  · intro hne
    unfold nearK
    rw [ek, eu]
    have : rne (Y / (2 * E)) = rne ((k : ℚ) / (2 * E)) := by
      set j := rne ((k : ℚ) / (2 * E)) with hj
      have hEp : (0 : ℚ) < 2 * E := by linarith
      have b1 := sub_rne_le ((k : ℚ) / (2 * E))
      have b2 := neg_half_le_sub_rne ((k : ℚ) / (2 * E))
      rw [← hj] at b1 b2
      have b1' : (k : ℚ) ≤ (j * (2 * E) + E : ℤ) := by
        have : (k : ℚ) / (2 * E) ≤ j + 1 / 2 := by linarith
        rw [div_le_iff₀ hEp] at this
        push_cast; linarith
      have b2' : ((j * (2 * E) - E : ℤ) : ℚ) ≤ k := by
        have : (j : ℚ) - 1 / 2 ≤ (k : ℚ) / (2 * E) := by linarith
        rw [le_div_iff₀ hEp] at this
        push_cast; linarith
      have b1i : (k : ℤ) ≤ j * (2 * E) + E := by exact_mod_cast b1'
      have b2i : j * (2 * E) - E ≤ (k : ℤ) := by exact_mod_cast b2'
      rw [hE1, hE2] at hne
      have n1 : (k : ℤ) ≠ j * (2 * E) + E := by
        intro he
        apply hne
        have : (k : ℤ) % (2 * E : ℕ) = (E : ℕ) := by
          rw [he]; push_cast
          rw [add_comm, Int.add_mul_emod_self_right]
          exact Int.emod_eq_of_lt (by omega) (by omega)
        exact_mod_cast this
      have n2 : (k : ℤ) ≠ j * (2 * E) - E := by
        intro he
        apply hne
        have : (k : ℤ) % (2 * E : ℕ) = (E : ℕ) := by
          rw [he]; push_cast
          rw [show j * (2 * (E : ℤ)) - E = E + (j - 1) * (2 * E) by ring, Int.add_mul_emod_self_right]
          exact Int.emod_eq_of_lt (by omega) (by omega)
        exact_mod_cast this
      have u1 : Y < ((j * (2 * E) + E : ℤ) : ℚ) := by
        by_contra hcon
        push Not at hcon
        have := le_rne_of_le hcon
        have hk2 : (k : ℤ) = kMax b := by omega
        have : ((2 ^ (b - 1) : ℕ) : ℚ) ≤ ((j * (2 * E) + E : ℤ) : ℚ) := by
          exact_mod_cast (by omega : ((2 ^ (b - 1) : ℕ) : ℤ) ≤ j * (2 * E) + E)
        linarith
      have u2 : ((j * (2 * E) - E : ℤ) : ℚ) < Y := by
        by_contra hcon
        push Not at hcon
        have := rne_le_of_le hcon
        have hk2 : (k : ℤ) = 1 := by omega
        have : ((j * (2 * E) - E : ℤ) : ℚ) ≤ 0 := by
          exact_mod_cast (by omega : j * (2 * E) - E ≤ (0 : ℤ))
        linarith
      apply IsRne.eq
      left
      push_cast at u1 u2
      rw [abs_lt]
      constructor
      · have : (j : ℚ) - 1 / 2 < Y / (2 * E) := by rw [lt_div_iff₀ hEp]; linarith
        linarith
      · have : Y / (2 * E) < (j : ℚ) + 1 / 2 := by rw [div_lt_iff₀ hEp]; linarith
        linarith
    rw [this]

end Takum
