import Verif.Lemmas.InvFinal

/-!
# C35: inversion of linear takums is the division of one
-/

namespace Takum
open Spec

/-- All 256 takums. -/
theorem lin_inversion_division_8 : ∀ t : T .w8, linInversion .w8 t = linDivision .w8 (ONE .w8) t := by decide +kernel

theorem short_regime : ∀ d < 16, rr d = 0 → bias d = -1 ∨ bias d = 0 := by decide

/-- Powers of two have exact inverses. -/
theorem inv_exact {p : ℕ} {c : ℤ} (hc : |c| ≤ 300) :
    x80.rq (1 / (((2 ^ p + 0 : ℕ) : ℚ) * (2 : ℚ) ^ (c - p))) = 1 / (((2 ^ p + 0 : ℕ) : ℚ) * (2 : ℚ) ^ (c - p)) := by
  obtain ⟨c1, c2⟩ := abs_le.mp hc
  have e : 1 / (((2 ^ p + 0 : ℕ) : ℚ) * (2 : ℚ) ^ (c - p)) = (2 : ℚ) ^ (-c) := by
    rw [Nat.add_zero, Nat.cast_pow, Nat.cast_ofNat, ← zpow_natCast, ← zpow_add₀ (by norm_num), one_div, ← zpow_neg]
    congr 1; ring
  rw [e]
  refine x80.rq_of_rep (Fmt.Rep.zpow (by decide) ?_)
  show (-16445 : ℤ) ≤ -c
  omega

theorem inv_enc_16 {d i : ℕ} {c : ℤ} (hd : d < 16) (h1 : bias d ≤ c) (h2 : c < bias d + 2 ^ rr d) (hi : i < 2 ^ (11 - rr d)) (hi0 : 0 < i)
    {q : ℚ} (hq : q = ((2 ^ (11 - rr d) + i : ℕ) : ℚ) * (2 : ℚ) ^ (c - (11 - rr d : ℕ))) :
    linEnc .w16 (b64.rq (x80.rq (1 / q))) = linEnc .w16 (b64.rq (1 / q)) := by
  by_contra hne
  have hr := rr_le d hd
  have hb := bias_bound d hd
  have hne' : b64.rq (x80.rq (1 / q)) ≠ b64.rq (1 / q) := fun e => hne (by rw [e])
  rw [hq] at hne'
  have hV2 : 2 ^ (11 - rr d) + i < 2 ^ (11 - rr d + 1) := by rw [pow_succ]; omega
  obtain ⟨H, g1, -, -, -⟩ := inv_double (p := 11 - rr d) (c := c) (by rw [abs_le]; omega) (by omega) hV2 hne'
  obtain ⟨a, b⟩ := inv_double_short (by omega) hV2 g1 (by omega)
  have hr0 : rr d = 0 := by omega
  rw [b, a] at hq
  rw [hr0] at h2
  apply hne
  rcases short_regime d hd hr0 with e | e
  · have : c = -1 := by omega
    rw [hq, this]; decide +kernel
  · have : c = 0 := by omega
    rw [hq, this]; decide +kernel

/-- Regular arguments which are positive. -/
theorem inv_enc_pos {w : W} (hw : w = .w16 ∨ w = .w32) {t : T w} (ht : Regular t) (hs : t.msb = false)
    (I1 : b64.In (b64.rq (x80.rq (1 / qv t)))) (I2 : b64.In (b64.rq (1 / qv t))) :
    linEnc w (b64.rq (x80.rq (1 / qv t))) = linEnc w (b64.rq (1 / qv t)) := by
  rcases hw with rfl | rfl
  · obtain ⟨d, c, i, h1, h2, h3, h4, h5, -⟩ := pos_sig (w := .w16) (by decide) ht hs
    rw [show W.n .w16 - 5 - rr d = 11 - rr d from rfl] at h4 h5
    have hb := bias_bound d h1
    rcases Nat.eq_zero_or_pos i with hi | hi
    · subst hi
      rw [h5, inv_exact (by rw [abs_le]; omega)]
    · exact inv_enc_16 h1 h2 h3 h4 hi h5
  · obtain ⟨d, c, i, h1, h2, h3, h4, h5, -⟩ := pos_sig (w := .w32) (by decide) ht hs
    rw [show W.n .w32 - 5 - rr d = 27 - rr d from rfl] at h4 h5
    have hb := bias_bound d h1
    rcases Nat.eq_zero_or_pos i with hi | hi
    · subst hi
      rw [h5, inv_exact (by rw [abs_le]; omega)]
    · exact inv_enc_32 h1 h2 h3 h4 hi h5 I1 I2

theorem inv_enc {w : W} (hw : w = .w16 ∨ w = .w32) {t : T w} (ht : Regular t) :
    linEnc w (w.src.fmt.rq (x80.rq (1 / qv t))) = linEnc w (w.src.fmt.rq (1 / qv t)) := by
  have F : w.src.fmt = b64 := by rcases hw with rfl | rfl <;> rfl
  have In2 : ∀ u : T w, Regular u → b64.In (b64.rq (1 / qv u)) := by
    intro u hu
    have := quot_le (qv_lt (ONE w)) hu
    rw [qv_one] at this
    rw [← F]; exact rq_src_in this
  have In1 : ∀ u : T w, Regular u → b64.In (b64.rq (x80.rq (1 / qv u))) := by
    intro u hu
    rw [← F]; exact (linInversion_eq hu).2.1
  rw [F]
  rcases Bool.eq_false_or_eq_true t.msb with hs | hs
  · obtain ⟨hm, -, hr, -⟩ := regular_neg (by have := w.n_pos; omega) ht
    rw [hs] at hm
    have := inv_enc_pos hw hr hm (In1 _ hr) (In2 _ hr)
    have e : 1 / qv (-t) = -(1 / qv t) := by rw [qv_neg ht.2, div_neg]
    rw [e, x80.rq_neg, b64.rq_neg, b64.rq_neg, linEnc_neg (by rw [F]; exact In1 t ht), linEnc_neg (by rw [F]; exact In2 t ht)] at this
    rw [← BitVec.neg_neg (x := linEnc w (b64.rq (x80.rq (1 / qv t)))), this, BitVec.neg_neg]
  · exact inv_enc_pos hw ht hs (In1 t ht) (In2 t ht)

/-- C35: inversion is the division of one, though the two round differently on the way. -/
theorem lin_inversion_division (w : W) (t : T w) : linInversion w t = linDivision w (ONE w) t := by
  rcases (by cases w <;> simp : w = .w8 ∨ (w = .w16 ∨ w = .w32) ∨ w = .w64) with rfl | hw | rfl
  · exact lin_inversion_division_8 t
  · have hone := (ONE_facts w).2.2.1
    by_cases h0 : t = 0#w.n
    · subst h0; rw [(linInversion_special w).1]; exact (linDivision_zero _).symm
    by_cases hn : t = nar w.n
    · subst hn; rw [(linInversion_special w).2]
      exact (binaryLin_nar (w := w) (fn := Fl.div) (fun _ _ => rfl) div_nan _).2.symm
    have ht : Regular t := ⟨h0, hn⟩
    rw [(linInversion_eq ht).1, linDivision_eq hone.2 ht, qv_one, inv_enc hw ht]
  · exact lin_inversion_division_64 t

/-- The two quotients of the 16-bit takum 2731/2048 are different numbers. -/
example : linVal (0x42ab#16 : T .w16) = some (2731 / 2 ^ 11) ∧ b64.rq (x80.rq (1 / (2731 / 2 ^ 11 : ℚ))) ≠ b64.rq (1 / (2731 / 2 ^ 11 : ℚ)) ∧
    linInversion .w16 0x42ab#16 = .ok 0x3c00#16 ∧ linDivision .w16 (ONE .w16) 0x42ab#16 = .ok 0x3c00#16 := by decide +kernel

end Takum
