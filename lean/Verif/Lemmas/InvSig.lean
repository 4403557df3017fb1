import Verif.Lemmas.InvDouble

/-!
# Significands of neighbouring linear takums, and the middle between them
-/

namespace Takum
open Spec

/-- The number at a position and its upper neighbour: `d` are the bits `DR`, `c` the characteristic, `i` the mantissa. -/
theorem psi_sig {n : ℕ} (hn : 12 ≤ n) {k : ℕ} (hk : k < 2 ^ (n - 1)) :
    ∃ (d : ℕ) (c : ℤ) (i : ℕ), d < 16 ∧ bias d ≤ c ∧ c < bias d + 2 ^ rr d ∧ i < 2 ^ (n - 5 - rr d) ∧
      lam (psi ((k : ℚ) / ((2 ^ (n - 5) : ℕ) : ℚ))) = ((2 ^ (n - 5 - rr d) + i : ℕ) : ℚ) * (2 : ℚ) ^ (c - (n - 5 - rr d : ℕ)) ∧
      (k + 1 < 2 ^ (n - 1) → lam (psi (((k + 1 : ℕ) : ℚ) / ((2 ^ (n - 5) : ℕ) : ℚ))) =
        ((2 ^ (n - 5 - rr d) + i + 1 : ℕ) : ℚ) * (2 : ℚ) ^ (c - (n - 5 - rr d : ℕ))) := by
  set Wn := 2 ^ (n - 5) with hW
  have hWp : 0 < Wn := by positivity
  have hWq : (0 : ℚ) < (Wn : ℚ) := by exact_mod_cast hWp
  rw [pow16 (by omega)] at hk
  rw [pow16 (by omega)]
  set d := k / Wn with hd
  have d1 : d * Wn ≤ k := Nat.div_mul_le_self _ _
  have d2 : k < (d + 1) * Wn := by
    have := Nat.lt_div_mul_add (a := k) (b := Wn) hWp
    rw [add_mul, one_mul]; exact this
  have d16 : d < 16 := by
    by_contra h
    have : 16 * Wn ≤ d * Wn := Nat.mul_le_mul_right _ (by omega)
    omega
  set v := k - d * Wn with hv
  have hv1 : v + 1 ≤ Wn := by rw [add_mul, one_mul] at d2; omega
  have hr := rr_le d d16
  set p := n - 5 - rr d with hp
  set Q := 2 ^ p with hQ
  have hQp : 0 < Q := by positivity
  have hQW : Wn = 2 ^ rr d * Q := by rw [hW, hQ, ← pow_add]; congr 1; omega
  have hQq : (0 : ℚ) < (Q : ℚ) := by exact_mod_cast hQp
  have e1 : psi ((k : ℚ) / Wn) = bias d + (v : ℚ) / Q := by
    rw [psi_eq_piece (d := d)]
    · unfold piece
      have : (k : ℚ) = v + d * Wn := by rw [hv]; push_cast [Nat.cast_sub d1]; ring
      rw [this, hQW]; push_cast; field_simp; ring
    · rw [le_div_iff₀ hWq]; exact_mod_cast d1
    · rw [div_lt_iff₀ hWq]; exact_mod_cast d2
  have hk1 : ((k + 1 : ℕ) : ℚ) = v + 1 + d * Wn := by rw [hv]; push_cast [Nat.cast_sub d1]; ring
  have e2 : k + 1 < 16 * Wn → psi (((k + 1 : ℕ) : ℚ) / Wn) = bias d + ((v : ℚ) + 1) / Q := by
    intro hk'
    have a1 : (d : ℚ) ≤ ((k + 1 : ℕ) : ℚ) / Wn := by
      rw [le_div_iff₀ hWq, hk1]; nlinarith [(Nat.cast_nonneg v : (0 : ℚ) ≤ v)]
    have a2 : ((k + 1 : ℕ) : ℚ) / Wn ≤ d + 1 := by
      rw [div_le_iff₀ hWq]; exact_mod_cast d2
    have e : psi (((k + 1 : ℕ) : ℚ) / Wn) = piece d (((k + 1 : ℕ) : ℚ) / Wn) := by
      by_cases hd15 : d < 15
      · exact psi_eq_piece' hd15 a1 a2
      · apply psi_eq_piece a1
        rw [div_lt_iff₀ hWq]
        have : d = 15 := by omega
        rw [this]
        exact_mod_cast (by omega : k + 1 < (15 + 1) * Wn)
    rw [e]
    unfold piece
    rw [hk1, hQW]; push_cast; field_simp; ring
  have hdm : Q * (v / Q) + v % Q = v := Nat.div_add_mod v Q
  have hml : v % Q < Q := Nat.mod_lt _ hQp
  have hgl : v / Q * Q ≤ v := Nat.div_mul_le_self v Q
  have hvq : v / Q < 2 ^ rr d := by
    rw [Nat.div_lt_iff_lt_mul hQp, ← hQW]; omega
  generalize v / Q = g at hdm hgl hvq
  have hdq : (v : ℚ) = Q * g + (v % Q : ℕ) := by exact_mod_cast hdm.symm
  have two : (Q : ℚ) * (2 : ℚ) ^ (bias d + (g : ℤ) - (p : ℤ)) = (2 : ℚ) ^ (bias d + (g : ℤ) : ℤ) := by
    rw [zpow_sub₀ (by norm_num), hQ]; push_cast; rw [zpow_natCast]; field_simp
  refine ⟨d, bias d + (g : ℤ), v % Q, d16, by omega, ?_, hml, ?_, ?_⟩
  · have : (g : ℤ) < 2 ^ rr d := by exact_mod_cast hvq
    omega
  · have b1 : ((bias d + (g : ℤ) : ℤ) : ℚ) ≤ psi ((k : ℚ) / Wn) := by
      rw [e1]; push_cast
      have : (g : ℚ) ≤ (v : ℚ) / Q := by rw [le_div_iff₀ hQq]; exact_mod_cast hgl
      linarith
    have b2 : psi ((k : ℚ) / Wn) ≤ ((bias d + (g : ℤ) : ℤ) : ℚ) + 1 := by
      rw [e1]; push_cast
      have : (v : ℚ) / Q ≤ (g : ℚ) + 1 := by
        rw [div_le_iff₀ hQq, hdq]
        have : ((v % Q : ℕ) : ℚ) ≤ Q := by exact_mod_cast hml.le
        linarith
      linarith
    rw [lam_affine b1 b2, e1, ← two]
    rw [show (bias d : ℚ) + (v : ℚ) / Q - ((bias d + (g : ℤ) : ℤ) : ℚ) = ((v % Q : ℕ) : ℚ) / Q by
      push_cast; rw [hdq]; field_simp; ring]
    push_cast
    rw [← mul_assoc]
    congr 1
    rw [add_mul, one_mul, div_mul_cancel₀ _ hQq.ne', hQ]; push_cast; rfl
  · intro hk'
    have b1 : ((bias d + (g : ℤ) : ℤ) : ℚ) ≤ psi (((k + 1 : ℕ) : ℚ) / Wn) := by
      rw [e2 hk']; push_cast
      have : (g : ℚ) ≤ ((v : ℚ) + 1) / Q := by
        rw [le_div_iff₀ hQq]
        have : (g : ℚ) * Q ≤ v := by exact_mod_cast hgl
        linarith
      linarith
    have b2 : psi (((k + 1 : ℕ) : ℚ) / Wn) ≤ ((bias d + (g : ℤ) : ℤ) : ℚ) + 1 := by
      rw [e2 hk']; push_cast
      have : ((v : ℚ) + 1) / Q ≤ (g : ℚ) + 1 := by
        rw [div_le_iff₀ hQq, hdq]
        have : ((v % Q : ℕ) : ℚ) + 1 ≤ Q := by exact_mod_cast hml
        linarith
      linarith
    rw [lam_affine b1 b2, e2 hk', ← two]
    rw [show (bias d : ℚ) + ((v : ℚ) + 1) / Q - ((bias d + (g : ℤ) : ℤ) : ℚ) = (((v % Q : ℕ) : ℚ) + 1) / Q by
      push_cast; rw [hdq]; field_simp; ring]
    push_cast
    rw [← mul_assoc]
    congr 1
    rw [add_mul, one_mul, div_mul_cancel₀ _ hQq.ne', hQ]; push_cast; ring

/-- The characteristic determines the bits `DR`. -/
theorem bias_unique {d d' : ℕ} (hd : d < 16) (hd' : d' < 16) {c : ℤ} (h1 : bias d ≤ c) (h2 : c < bias d + 2 ^ rr d)
    (h1' : bias d' ≤ c) (h2' : c < bias d' + 2 ^ rr d') : d = d' := by
  rcases lt_trichotomy d d' with h | h | h
  · have := bias_mono_aux d hd d' hd' h; omega
  · exact h
  · have := bias_mono_aux d' hd' d hd h; omega

/-- Positive takums of 16 and 32 bits. -/
theorem pos_sig {w : W} (hw : 12 ≤ w.n) {t : T w} (ht : Regular t) (hs : t.msb = false) :
    ∃ (d : ℕ) (c : ℤ) (i : ℕ), d < 16 ∧ bias d ≤ c ∧ c < bias d + 2 ^ rr d ∧ i < 2 ^ (w.n - 5 - rr d) ∧
      qv t = ((2 ^ (w.n - 5 - rr d) + i : ℕ) : ℚ) * (2 : ℚ) ^ (c - (w.n - 5 - rr d : ℕ)) ∧
      (low t + 1 < 2 ^ (w.n - 1) → ∃ t' : T w, Regular t' ∧ t'.msb = false ∧ low t' = low t + 1 ∧ qv t' =
        ((2 ^ (w.n - 5 - rr d) + i + 1 : ℕ) : ℚ) * (2 : ℚ) ^ (c - (w.n - 5 - rr d : ℕ))) := by
  have hl : low t < 2 ^ (w.n - 1) := low_lt t
  have val : ∀ u : T w, Regular u → u.msb = false → qv u = lam (psi ((low u : ℚ) / ((2 ^ (w.n - 5) : ℕ) : ℚ))) := by
    intro u hu hs
    rw [qv_regular hu]; unfold lv; rw [hs, ell_sg (by omega), hs]
    unfold pos; simp [sg]
  obtain ⟨d, c, i, h1, h2, h3, h4, h5, h6⟩ := psi_sig hw hl
  refine ⟨d, c, i, h1, h2, h3, h4, by rw [val t ht hs]; exact h5, fun hk => ?_⟩
  have a1 : (mkT w.n false (low t + 1)).msb = false := mkT_msb (by omega) _ hk
  have a2 : low (mkT w.n false (low t + 1)) = low t + 1 := mkT_low (by omega) _ hk
  have a3 : Regular (mkT w.n false (low t + 1)) := regular_mkT (by omega) _ (by omega) hk
  refine ⟨mkT w.n false (low t + 1), a3, a1, a2, ?_⟩
  rw [val _ a3 a1, a2]; exact h6 hk

end Takum
