import Verif.Lemmas.InvMid
import Verif.Lemmas.InvDouble
import Verif.Lemmas.InvSig

/-!
# Inversion of linear takums is the division of one, for 8, 16 and 32 bits

`takum_linearN_inversion` divides in `long double` and rounds to `double`, `takum_linearN_division` divides in `double`.  The
two `double`s differ for some takums, the two takums never do.
-/

namespace Takum
open Spec

theorem toInt_low {w : W} {t : T w} (h : t.msb = false) : t.toInt = (low t : ℤ) := by
  have hn := w.n_pos
  rw [BitVec.toInt_eq_msb_cond, h]
  unfold low
  have : t.toNat < 2 ^ (w.n - 1) := by
    have := (BitVec.msb_eq_false_iff_two_mul_lt).mp h
    have e : 2 ^ w.n = 2 * 2 ^ (w.n - 1) := by rw [← pow_succ']; congr 1; omega
    omega
  rw [Nat.mod_eq_of_lt this]; simp

theorem msb_of_pos {w : W} {t : T w} (h : 0 < t.toInt) : t.msb = false := by
  rw [BitVec.toInt_eq_msb_cond] at h
  by_contra hc
  rw [Bool.not_eq_false] at hc
  rw [if_pos hc] at h
  have := t.isLt
  have : ((t.toNat : ℕ) : ℤ) < ((2 ^ w.n : ℕ) : ℤ) := by exact_mod_cast this
  push_cast at this h
  omega

theorem linEnc_nearest {v : ℚ} (hv : 0 < v) (h : b64.In v) : NearestLin v (linEnc .w32 v) := by
  obtain ⟨t, e, ht⟩ := lin_from_nearest .f64 .w32 (Or.inr rfl) (Or.inl rfl) v hv.ne' h
  rw [show linFrom .f64 .w32 (.num v) = .ok (linEnc .w32 v) from linFrom_enc (w := .w32) (Fl.Is.num hv.ne') h] at e
  rw [Except.ok.inj e]; exact ht

theorem nearest_le {w : W} {v : ℚ} {t t' : T w} (h : NearestLin v t) (ht' : Regular t') (hm : t'.msb = t.msb) :
    |qv t - v| ≤ |qv t' - v| := by
  rcases h.2.2 t' ht' hm (qv t) (qv t') (linVal_qv h.1.2) (linVal_qv ht'.2) with h | h
  · exact h.le
  · exact h.1.le

/-- Between two `double`s with different 32-bit takums there is the middle of two neighbouring takums. -/
theorem threshold {u v : ℚ} (hu : 0 < u) (huv : u ≤ v) (iu : b64.In u) (iv : b64.In v) (h : linEnc .w32 u ≠ linEnc .w32 v) :
    ∃ (d : ℕ) (c : ℤ) (i : ℕ), d < 16 ∧ bias d ≤ c ∧ c < bias d + 2 ^ rr d ∧ i < 2 ^ (27 - rr d) ∧
      u ≤ ((2 ^ (28 - rr d) + 2 * i + 1 : ℕ) : ℚ) * (2 : ℚ) ^ (c - (28 - rr d : ℕ)) ∧
      ((2 ^ (28 - rr d) + 2 * i + 1 : ℕ) : ℚ) * (2 : ℚ) ^ (c - (28 - rr d : ℕ)) ≤ v := by
  have hv := lt_of_lt_of_le hu huv
  have nu := linEnc_nearest hu iu
  have nv := linEnc_nearest hv iv
  have pu := (linEnc_facts (w := .w32) iu).2.2.2.mp hu
  have pv := (linEnc_facts (w := .w32) iv).2.2.2.mp hv
  have mono := linEnc_mono (w := .w32) iu iv huv
  generalize ht : linEnc .w32 u = t at *
  generalize ht2 : linEnc .w32 v = t2 at *
  have m1 := msb_of_pos pu
  have m2 := msb_of_pos pv
  have hlt : t.toInt < t2.toInt := lt_of_le_of_ne mono (fun e => h (BitVec.eq_of_toInt_eq e))
  have hlow : low t < low t2 := by
    rw [toInt_low m1, toInt_low m2] at hlt; exact_mod_cast hlt
  obtain ⟨d, c, i, h1, h2, h3, h4, h5, h6⟩ := pos_sig (w := .w32) (by decide) nu.1 m1
  obtain ⟨t', r', m', l', q'⟩ := h6 (lt_of_le_of_lt (by omega) (low_lt t2))
  have hr := rr_le d h1
  rw [show W.n .w32 - 5 - rr d = 27 - rr d from rfl] at h4 h5 q'
  have hg : (0 : ℚ) < (2 : ℚ) ^ (c - (27 - rr d : ℕ)) := zpow_pos (by norm_num) _
  have hqq : qv t < qv t' := by
    rw [h5, q']; apply mul_lt_mul_of_pos_right _ hg; push_cast; linarith
  have hmid : ((2 ^ (28 - rr d) + 2 * i + 1 : ℕ) : ℚ) * (2 : ℚ) ^ (c - (28 - rr d : ℕ)) = (qv t + qv t') / 2 := by
    rw [h5, q', show 28 - rr d = (27 - rr d) + 1 by omega]
    rw [show c - ((27 - rr d + 1 : ℕ) : ℤ) = (c - (27 - rr d : ℕ)) - 1 by push_cast; ring, zpow_sub_one₀ (by norm_num), pow_succ]
    push_cast; ring
  have hq2 : qv t' ≤ qv t2 := by
    rw [qv_le_iff r'.2 nv.1.2, toInt_low m', toInt_low m2, l']; exact_mod_cast hlow
  have k1 := nearest_le (w := .w32) nu r' (by rw [m', m1])
  have k2 := nearest_le (w := .w32) nv nu.1 (by rw [m1, m2])
  refine ⟨d, c, i, h1, h2, h3, h4, ?_, ?_⟩
  · rw [hmid]
    by_contra hc
    rw [not_le] at hc
    rcases le_total (qv t') u with g | g
    · rw [abs_of_neg (by linarith), abs_of_nonpos (by linarith)] at k1; linarith
    · rw [abs_of_neg (by linarith), abs_of_nonneg (by linarith)] at k1; linarith
  · rw [hmid]
    by_contra hc
    rw [not_le] at hc
    rcases le_total (qv t) v with g | g
    · rw [abs_of_nonneg (by linarith), abs_of_nonpos (by linarith)] at k2; linarith
    · rw [abs_of_nonneg (by linarith), abs_of_nonneg (by linarith)] at k2; linarith

/-- The exponents of a number and of a number about its inverse. -/
theorem inverse_regime {d d' : ℕ} {c c' : ℤ} (hd : d < 16) (hd' : d' < 16) (h1 : bias d ≤ c) (h2 : c < bias d + 2 ^ rr d)
    (h1' : bias d' ≤ c') (h2' : c' < bias d' + 2 ^ rr d') (h : c' = -c - 1) : rr d' = rr d := by
  have e := bias_symm d hd
  have e2 := rr_symm d hd
  have : d' = 15 - d := by
    refine bias_unique hd' (by omega) h1' h2' ?_ ?_
    · omega
    · rw [e2]; omega
  rw [this, e2]

theorem pow_between {m n : ℤ} {x : ℚ} (h1 : (2 : ℚ) ^ m < x) (h2 : x < (2 : ℚ) ^ n) : m < n :=
  (zpow_lt_zpow_iff_right₀ (by norm_num : (1 : ℚ) < 2)).mp (h1.trans h2)

theorem bias_bound : ∀ d < 16, -300 ≤ bias d ∧ bias d + 2 ^ rr d ≤ 300 := by decide

/-- The two quotients have the same takum. -/
theorem inv_enc_32 {d i : ℕ} {c : ℤ} (hd : d < 16) (h1 : bias d ≤ c) (h2 : c < bias d + 2 ^ rr d) (hi : i < 2 ^ (27 - rr d)) (hi0 : 0 < i)
    {q : ℚ} (hq : q = ((2 ^ (27 - rr d) + i : ℕ) : ℚ) * (2 : ℚ) ^ (c - (27 - rr d : ℕ)))
    (I1 : b64.In (b64.rq (x80.rq (1 / q)))) (I2 : b64.In (b64.rq (1 / q))) :
    linEnc .w32 (b64.rq (x80.rq (1 / q))) = linEnc .w32 (b64.rq (1 / q)) := by
  by_contra hne
  have hr := rr_le d hd
  have hb := bias_bound d hd
  set p := 27 - rr d with hp
  set V := 2 ^ p + i with hV
  have hV1 : 2 ^ p < V := by omega
  have hV2 : V < 2 ^ (p + 1) := by rw [pow_succ]; omega
  have hne' : b64.rq (x80.rq (1 / q)) ≠ b64.rq (1 / q) := fun e => hne (by rw [e])
  rw [hq] at hne' hne I1 I2
  obtain ⟨H, g1, g2, g3, g4⟩ := inv_double (p := p) (V := V) (c := c) (by rw [abs_le]; omega) hV1 hV2 hne'
  have E0 : (0 : ℚ) < (2 : ℚ) ^ (-c - 53) := zpow_pos (by norm_num) _
  have H0 : (0 : ℚ) < (H : ℚ) := by
    have : (0 : ℤ) < H := lt_of_lt_of_le (by norm_num) g2
    exact_mod_cast this
  have key : ∃ (d' : ℕ) (c' : ℤ) (i' : ℕ), d' < 16 ∧ bias d' ≤ c' ∧ c' < bias d' + 2 ^ rr d' ∧ i' < 2 ^ (27 - rr d') ∧
      H * (2 : ℚ) ^ (-c - 53) ≤ ((2 ^ (28 - rr d') + 2 * i' + 1 : ℕ) : ℚ) * (2 : ℚ) ^ (c' - (28 - rr d' : ℕ)) ∧
      ((2 ^ (28 - rr d') + 2 * i' + 1 : ℕ) : ℚ) * (2 : ℚ) ^ (c' - (28 - rr d' : ℕ)) ≤ (H + 1) * (2 : ℚ) ^ (-c - 53) := by
    have hle : (H : ℚ) * (2 : ℚ) ^ (-c - 53) ≤ (H + 1) * (2 : ℚ) ^ (-c - 53) :=
      mul_le_mul_of_nonneg_right (by linarith) E0.le
    rcases g4 with ⟨a, b⟩ | ⟨a, b⟩ <;> rw [a, b] at hne
    · rw [b] at I1
      rw [a] at I2
      exact threshold (by positivity) hle I2 I1 (fun e => hne e.symm)
    · rw [a] at I1
      rw [b] at I2
      exact threshold (by positivity) hle I1 I2 hne
  obtain ⟨d', c', i', k1, k2, k3, k4, k5, k6⟩ := key
  have hr' := rr_le d' k1
  set n := 2 ^ (28 - rr d') + 2 * i' + 1 with hn
  -- the exponent of the middle
  have n1 : 2 ^ (28 - rr d') < n := by omega
  have n2 : n < 2 ^ (29 - rr d') := by
    rw [show 29 - rr d' = (27 - rr d') + 2 by omega, pow_add]
    have : 2 ^ (28 - rr d') = 2 * 2 ^ (27 - rr d') := by rw [← pow_succ']; congr 1; omega
    omega
  have G0 : (0 : ℚ) < (2 : ℚ) ^ (c' - (28 - rr d' : ℕ)) := zpow_pos (by norm_num) _
  have m1 : (2 : ℚ) ^ c' < n * (2 : ℚ) ^ (c' - (28 - rr d' : ℕ)) := by
    have : ((2 ^ (28 - rr d') : ℕ) : ℚ) < n := by exact_mod_cast n1
    calc (2 : ℚ) ^ c' = ((2 ^ (28 - rr d') : ℕ) : ℚ) * (2 : ℚ) ^ (c' - (28 - rr d' : ℕ)) := by
          rw [Nat.cast_pow, ← zpow_natCast, Nat.cast_ofNat, ← zpow_add₀ (by norm_num)]; congr 1; ring
      _ < _ := mul_lt_mul_of_pos_right this G0
  have m2 : n * (2 : ℚ) ^ (c' - (28 - rr d' : ℕ)) < (2 : ℚ) ^ (c' + 1) := by
    have : (n : ℚ) < ((2 ^ (29 - rr d') : ℕ) : ℚ) := by exact_mod_cast n2
    calc _ < ((2 ^ (29 - rr d') : ℕ) : ℚ) * (2 : ℚ) ^ (c' - (28 - rr d' : ℕ)) := mul_lt_mul_of_pos_right this G0
      _ = _ := by
          rw [Nat.cast_pow, ← zpow_natCast, Nat.cast_ofNat, ← zpow_add₀ (by norm_num)]; congr 1; omega
  have m3 : (2 : ℚ) ^ (-c - 1) ≤ H * (2 : ℚ) ^ (-c - 53) := by
    have : (2 : ℚ) ^ (52 : ℤ) ≤ H := by
      rw [show (2 : ℚ) ^ (52 : ℤ) = ((2 ^ 52 : ℤ) : ℚ) by norm_num]; exact_mod_cast g2
    calc (2 : ℚ) ^ (-c - 1) = (2 : ℚ) ^ (52 : ℤ) * (2 : ℚ) ^ (-c - 53) := by
          rw [← zpow_add₀ (by norm_num)]; congr 1; ring
      _ ≤ _ := mul_le_mul_of_nonneg_right this E0.le
  have m4 : (H + 1) * (2 : ℚ) ^ (-c - 53) ≤ (2 : ℚ) ^ (-c) := by
    have : (H + 1 : ℚ) ≤ (2 : ℚ) ^ (53 : ℤ) := by
      rw [show (2 : ℚ) ^ (53 : ℤ) = ((2 ^ 53 : ℤ) : ℚ) by norm_num]; exact_mod_cast g3
    calc _ ≤ (2 : ℚ) ^ (53 : ℤ) * (2 : ℚ) ^ (-c - 53) := mul_le_mul_of_nonneg_right this E0.le
      _ = _ := by rw [← zpow_add₀ (by norm_num)]; congr 1; ring
  have hc' : c' = -c - 1 := by
    have a1 := (zpow_lt_zpow_iff_right₀ (by norm_num : (1 : ℚ) < 2)).mp (lt_of_le_of_lt (m3.trans k5) m2)
    have a2 := (zpow_lt_zpow_iff_right₀ (by norm_num : (1 : ℚ) < 2)).mp (lt_of_lt_of_le m1 (k6.trans m4))
    omega
  have hrr := inverse_regime hd k1 h1 h2 k2 k3 hc'
  -- the middle in units of the double
  have hm : (n : ℚ) * (2 : ℚ) ^ (c' - (28 - rr d' : ℕ)) = ((n : ℤ) * 2 ^ (51 - p) : ℤ) * (2 : ℚ) ^ (-c - 53) := by
    push_cast
    rw [mul_assoc, ← zpow_natCast (2 : ℚ) (51 - p), ← zpow_add₀ (by norm_num)]
    congr 2
    rw [hrr, hc']; omega
  rw [hm] at k5 k6
  have k5' : H ≤ (n : ℤ) * 2 ^ (51 - p) := by
    have := le_of_mul_le_mul_right k5 E0
    exact_mod_cast this
  have k6' : (n : ℤ) * 2 ^ (51 - p) ≤ H + 1 := by
    have := le_of_mul_le_mul_right k6 E0
    exact_mod_cast this
  have hX : (n : ℤ) * 2 ^ (52 - p) = 2 * ((n : ℤ) * 2 ^ (51 - p)) := by
    rw [show 52 - p = (51 - p) + 1 by omega, pow_succ]; ring
  have hodd : n % 2 = 1 := by
    have : 2 ^ (28 - rr d') = 2 * 2 ^ (27 - rr d') := by rw [← pow_succ']; congr 1; omega
    omega
  rcases (by omega : 2 * H + 1 = (n : ℤ) * 2 ^ (52 - p) + 1 ∨ 2 * H + 1 = (n : ℤ) * 2 ^ (52 - p) + (-1)) with e | e
  · rw [e] at g1; exact no_mid (by omega) hV1 hV2 hodd (Or.inl rfl) g1
  · rw [e] at g1; exact no_mid (by omega) hV1 hV2 hodd (Or.inr rfl) g1

end Takum
