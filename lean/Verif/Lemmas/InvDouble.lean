import Verif.Props.LinNearest

/-!
# Rounding a quotient to `long double` and then to `double`

The two roundings give another `double` than rounding once only if the first one gives the middle of two neighbouring
`double`s.  For inverses of takums this is (almost) excluded because a takum and the middle of two takums are fractions with
small numerators.
-/

namespace Takum
open Spec

/-- Where rounding twice differs from rounding once. -/
theorem double_round {y : ℚ} {E : ℤ} (hE1 : -1000 ≤ E) (h1 : (2 : ℚ) ^ (52 + E) ≤ y) (h2 : y < (2 : ℚ) ^ (53 + E))
    (h : b64.rq (x80.rq y) ≠ b64.rq y) :
    ∃ H : ℤ, |y / (2 : ℚ) ^ E - (H + 1 / 2)| ≤ 1 / 2 ^ 12 ∧
      ((b64.rq y = H * (2 : ℚ) ^ E ∧ b64.rq (x80.rq y) = (H + 1) * (2 : ℚ) ^ E) ∨
        (b64.rq (x80.rq y) = H * (2 : ℚ) ^ E ∧ b64.rq y = (H + 1) * (2 : ℚ) ^ E)) := by
  have hy : 0 < y := lt_of_lt_of_le (zpow_pos (by norm_num) _) h1
  have hp : (0 : ℚ) < (2 : ℚ) ^ E := zpow_pos (by norm_num) _
  have log_eq : ∀ x : ℚ, (2 : ℚ) ^ (52 + E) ≤ x → x < (2 : ℚ) ^ (53 + E) → Int.log 2 |x| = 52 + E := by
    intro x a b
    have hx : 0 < x := lt_of_lt_of_le (zpow_pos (by norm_num) _) a
    rw [abs_of_pos hx]
    apply le_antisymm
    · have := (Int.lt_zpow_iff_log_lt (b := 2) (by norm_num) hx (x := 53 + E)).mp (by exact_mod_cast b)
      omega
    · exact (Int.zpow_le_iff_le_log (b := 2) (by norm_num) hx).mp (by exact_mod_cast a)
  have q64 : ∀ x : ℚ, (2 : ℚ) ^ (52 + E) ≤ x → x < (2 : ℚ) ^ (53 + E) → b64.qexp x = E := by
    intro x a b
    unfold Fmt.qexp; rw [log_eq x a b]
    have e1 : b64.prec = 53 := rfl
    have e2 : b64.emin = -1074 := rfl
    rw [e1, e2]; push_cast; omega
  have q80 : x80.qexp y = E - 11 := by
    unfold Fmt.qexp; rw [log_eq y h1 h2]
    have e1 : x80.prec = 64 := rfl
    have e2 : x80.emin = -16445 := rfl
    rw [e1, e2]; push_cast; omega
  set z := x80.rq y with hz
  have hr1 : x80.Rep ((2 : ℚ) ^ (52 + E)) := Fmt.Rep.zpow (by decide) (by show (-16445 : ℤ) ≤ _; omega)
  have hr2 : x80.Rep ((2 : ℚ) ^ (53 + E)) := Fmt.Rep.zpow (by decide) (by show (-16445 : ℤ) ≤ _; omega)
  have hr3 : b64.Rep ((2 : ℚ) ^ (53 + E)) := Fmt.Rep.zpow (by decide) (by show (-1074 : ℤ) ≤ _; omega)
  have z1 : (2 : ℚ) ^ (52 + E) ≤ z := x80.le_rq (by decide) hr1 h1
  have z2 : z ≤ (2 : ℚ) ^ (53 + E) := x80.rq_le (by decide) hr2 h2.le
  have e53 : (2 : ℚ) ^ (53 + E) / (2 : ℚ) ^ E = ((2 ^ 53 : ℤ) : ℚ) := by
    rw [zpow_add₀ (by norm_num)]; field_simp; norm_num
  have ry : b64.rq y = rne (y / (2 : ℚ) ^ E) * (2 : ℚ) ^ E := by unfold Fmt.rq; rw [q64 y h1 h2]
  have rz : b64.rq z = rne (z / (2 : ℚ) ^ E) * (2 : ℚ) ^ E := by
    rcases eq_or_lt_of_le z2 with h | h
    · rw [h, b64.rq_of_rep hr3, e53, rne_intCast, ← e53]; field_simp
    · unfold Fmt.rq; rw [q64 z z1 h]
  have err : |y / (2 : ℚ) ^ E - z / (2 : ℚ) ^ E| ≤ 1 / 2 ^ 12 := by
    have := x80.abs_sub_rq y
    rw [q80, ← hz] at this
    rw [← sub_div, abs_div, abs_of_pos hp, div_le_iff₀ hp]
    refine this.trans (le_of_eq ?_)
    rw [zpow_sub₀ (by norm_num)]; norm_num; ring
  have mid_rep : ∀ H : ℤ, (0 : ℚ) ≤ (H : ℚ) + 1 / 2 → ((H : ℚ) + 1 / 2) ≤ 2 ^ 53 → x80.Rep (((H : ℚ) + 1 / 2) * (2 : ℚ) ^ E) := by
    intro H a b
    refine ⟨2 * H + 1, E - 1, ?_, ?_, by show (-16445 : ℤ) ≤ _; omega⟩
    · rw [zpow_sub₀ (by norm_num)]; push_cast; field_simp
    · have a' : (0 : ℚ) ≤ ((2 * H + 1 : ℤ) : ℚ) := by push_cast; linarith
      have b' : ((2 * H + 1 : ℤ) : ℚ) ≤ ((2 ^ 54 : ℤ) : ℚ) := by push_cast; linarith
      have a2 : 0 ≤ 2 * H + 1 := by exact_mod_cast a'
      have b2 : 2 * H + 1 ≤ 2 ^ 54 := by exact_mod_cast b'
      rw [abs_of_nonneg a2]
      exact lt_of_le_of_lt b2 (by show (2 : ℤ) ^ 54 < 2 ^ 64; norm_num)
  set X := y / (2 : ℚ) ^ E with hX
  set Z := z / (2 : ℚ) ^ E with hZ
  have yX : y = X * (2 : ℚ) ^ E := by rw [hX]; field_simp
  have zZ : z = Z * (2 : ℚ) ^ E := by rw [hZ]; field_simp
  have X0 : 0 ≤ X := by positivity
  have Z0 : 0 ≤ Z := by have : 0 ≤ z := le_trans (by positivity) z1; positivity
  have X1 : X ≤ 2 ^ 53 := by
    rw [hX, div_le_iff₀ hp]; refine h2.le.trans (le_of_eq ?_); rw [zpow_add₀ (by norm_num)]; norm_num
  have Z1 : Z ≤ 2 ^ 53 := by
    rw [hZ, div_le_iff₀ hp]; refine z2.trans (le_of_eq ?_); rw [zpow_add₀ (by norm_num)]; norm_num
  have hne : rne Z ≠ rne X := by
    intro e; apply h; rw [rz, ry, e]
  have aX := abs_le.mp (abs_sub_rne X)
  have aZ := abs_le.mp (abs_sub_rne Z)
  rcases lt_or_gt_of_ne hne with hl | hl
  · -- the `long double` is in the middle, the quotient above
    have hl' : ((rne Z : ℤ) : ℚ) + 1 ≤ rne X := by exact_mod_cast hl
    set H := rne Z
    have b1 : Z ≤ H + 1 / 2 := by linarith
    have b2 : (H : ℚ) + 1 / 2 ≤ X := by linarith
    have b3 : ((H : ℚ) + 1 / 2) * (2 : ℚ) ^ E ≤ z :=
      x80.le_rq (by decide) (mid_rep H (by linarith) (by linarith)) (by rw [yX]; exact mul_le_mul_of_nonneg_right b2 hp.le)
    have b4 : (H : ℚ) + 1 / 2 ≤ Z := by rw [hZ, le_div_iff₀ hp]; exact b3
    have eZ : Z = H + 1 / 2 := le_antisymm b1 b4
    have hX' : rne X = H + 1 := by
      have h5 : ((rne X : ℤ) : ℚ) < H + 2 := by
        have := (abs_le.mp err).2
        rw [eZ] at this
        have : (1 : ℚ) / 2 ^ 12 < 1 / 2 := by norm_num
        linarith
      have h6 : rne X < H + 2 := by exact_mod_cast h5
      have h7 : H + 1 ≤ rne X := by exact_mod_cast hl'
      omega
    refine ⟨H, by rw [← eZ]; exact err, Or.inr ⟨rz, ?_⟩⟩
    rw [ry, hX']; push_cast; rfl
  · have hl' : ((rne X : ℤ) : ℚ) + 1 ≤ rne Z := by exact_mod_cast hl
    set H := rne X
    have b1 : X ≤ H + 1 / 2 := by linarith
    have b2 : (H : ℚ) + 1 / 2 ≤ Z := by linarith
    have b3 : z ≤ ((H : ℚ) + 1 / 2) * (2 : ℚ) ^ E :=
      x80.rq_le (by decide) (mid_rep H (by linarith) (by linarith)) (by rw [yX]; exact mul_le_mul_of_nonneg_right b1 hp.le)
    have b4 : Z ≤ (H : ℚ) + 1 / 2 := by rw [hZ, div_le_iff₀ hp]; exact b3
    have eZ : Z = H + 1 / 2 := le_antisymm b4 b2
    have hZ' : rne Z = H + 1 := by
      have h5 : ((rne Z : ℤ) : ℚ) < H + 2 := by
        have := (abs_le.mp (abs_sub_rne Z)).1
        linarith
      have h6 : rne Z < H + 2 := by exact_mod_cast h5
      have h7 : H + 1 ≤ rne Z := by exact_mod_cast hl'
      omega
    refine ⟨H, by rw [← eZ]; exact err, Or.inl ⟨ry, ?_⟩⟩
    rw [rz, hZ']; push_cast; rfl

/-- The inverse of `V · 2^(c-p)`. -/
theorem inv_double {p V : ℕ} {c : ℤ} (hc : |c| ≤ 300) (hV1 : 2 ^ p < V) (hV2 : V < 2 ^ (p + 1))
    (h : b64.rq (x80.rq (1 / ((V : ℚ) * (2 : ℚ) ^ (c - p)))) ≠ b64.rq (1 / ((V : ℚ) * (2 : ℚ) ^ (c - p)))) :
    ∃ H : ℤ, 2 ^ 11 * |2 ^ (p + 54) - (2 * H + 1) * (V : ℤ)| ≤ V ∧ 2 ^ 52 ≤ H ∧ H + 1 ≤ 2 ^ 53 ∧
      ((b64.rq (1 / ((V : ℚ) * (2 : ℚ) ^ (c - p))) = H * (2 : ℚ) ^ (-c - 53) ∧
          b64.rq (x80.rq (1 / ((V : ℚ) * (2 : ℚ) ^ (c - p)))) = (H + 1) * (2 : ℚ) ^ (-c - 53)) ∨
        (b64.rq (x80.rq (1 / ((V : ℚ) * (2 : ℚ) ^ (c - p)))) = H * (2 : ℚ) ^ (-c - 53) ∧
          b64.rq (1 / ((V : ℚ) * (2 : ℚ) ^ (c - p))) = (H + 1) * (2 : ℚ) ^ (-c - 53))) := by
  obtain ⟨c1, c2⟩ := abs_le.mp hc
  have hV0 : (0 : ℚ) < V := by exact_mod_cast (lt_trans (by positivity) hV1)
  have hV1' : (2 : ℚ) ^ p < V := by exact_mod_cast hV1
  have hV2' : (V : ℚ) < 2 ^ (p + 1) := by exact_mod_cast hV2
  have hp : (0 : ℚ) < (2 : ℚ) ^ (c - p) := zpow_pos (by norm_num) _
  have e1 : (2 : ℚ) ^ (52 + (-c - 53)) * ((2 : ℚ) ^ (p + 1) * (2 : ℚ) ^ (c - p)) = 1 := by
    rw [← zpow_natCast, ← zpow_add₀ (by norm_num), ← zpow_add₀ (by norm_num)]
    rw [show 52 + (-c - 53) + (((p + 1 : ℕ) : ℤ) + (c - p)) = 0 by push_cast; ring, zpow_zero]
  have e2 : (2 : ℚ) ^ (53 + (-c - 53)) * ((2 : ℚ) ^ p * (2 : ℚ) ^ (c - p)) = 1 := by
    rw [← zpow_natCast, ← zpow_add₀ (by norm_num), ← zpow_add₀ (by norm_num)]
    rw [show 53 + (-c - 53) + ((p : ℤ) + (c - p)) = 0 by ring, zpow_zero]
  have y1 : (2 : ℚ) ^ (52 + (-c - 53)) < 1 / ((V : ℚ) * (2 : ℚ) ^ (c - p)) := by
    rw [lt_div_iff₀ (by positivity)]; refine lt_of_lt_of_eq ?_ e1
    have : (0 : ℚ) < (2 : ℚ) ^ (52 + (-c - 53)) := zpow_pos (by norm_num) _
    gcongr
  have y2 : 1 / ((V : ℚ) * (2 : ℚ) ^ (c - p)) < (2 : ℚ) ^ (53 + (-c - 53)) := by
    rw [div_lt_iff₀ (by positivity)]; refine lt_of_eq_of_lt e2.symm ?_
    have : (0 : ℚ) < (2 : ℚ) ^ (53 + (-c - 53)) := zpow_pos (by norm_num) _
    gcongr
  obtain ⟨H, h1, h2⟩ := double_round (E := -c - 53) (by omega) y1.le y2 h
  have e3 : 1 / ((V : ℚ) * (2 : ℚ) ^ (c - p)) / (2 : ℚ) ^ (-c - 53) = 2 ^ (p + 53) / V := by
    rw [div_div, one_div, eq_div_iff hV0.ne', inv_mul_eq_div, div_eq_iff (by positivity)]
    have : (2 : ℚ) ^ (p + 53) * ((2 : ℚ) ^ (c - p) * (2 : ℚ) ^ (-c - 53)) = 1 := by
      rw [← zpow_natCast, ← zpow_add₀ (by norm_num), ← zpow_add₀ (by norm_num)]
      rw [show ((p + 53 : ℕ) : ℤ) + ((c - p) + (-c - 53)) = 0 by push_cast; ring, zpow_zero]
    calc (V : ℚ) = V * ((2 : ℚ) ^ (p + 53) * ((2 : ℚ) ^ (c - p) * (2 : ℚ) ^ (-c - 53))) := by rw [this, mul_one]
      _ = _ := by ring
  rw [e3] at h1
  have key : (2 : ℚ) ^ 11 * |2 ^ (p + 54) - (2 * H + 1) * (V : ℚ)| ≤ V := by
    have e4 : (2 : ℚ) ^ (p + 54) - (2 * H + 1) * (V : ℚ) = (2 ^ (p + 53) / V - (H + 1 / 2)) * (2 * V) := by
      field_simp; ring
    rw [e4, abs_mul, abs_of_pos (by positivity : (0 : ℚ) < 2 * V)]
    calc (2 : ℚ) ^ 11 * (|(2 : ℚ) ^ (p + 53) / V - (H + 1 / 2)| * (2 * V)) ≤ 2 ^ 11 * (1 / 2 ^ 12 * (2 * V)) := by gcongr
      _ = (V : ℚ) := by ring
  have hb := abs_le.mp h1
  have r1 : (2 : ℚ) ^ 52 < 2 ^ (p + 53) / V := by
    rw [lt_div_iff₀ hV0]
    calc (2 : ℚ) ^ 52 * V < 2 ^ 52 * 2 ^ (p + 1) := by gcongr
      _ = 2 ^ (p + 53) := by ring
  have r2 : 2 ^ (p + 53) / V < (2 : ℚ) ^ 53 := by
    rw [div_lt_iff₀ hV0]
    calc (2 : ℚ) ^ (p + 53) = 2 ^ 53 * 2 ^ p := by ring
      _ < _ := by gcongr
  refine ⟨H, ?_, ?_, ?_, h2⟩
  · have : ((2 ^ 11 * |2 ^ (p + 54) - (2 * H + 1) * (V : ℤ)| : ℤ) : ℚ) ≤ ((V : ℤ) : ℚ) := by
      push_cast; exact key
    exact_mod_cast this
  · have : ((2 ^ 52 : ℤ) : ℚ) < (H + 1 : ℤ) := by
      push_cast
      have : (1 : ℚ) / 2 ^ 12 < 1 / 2 := by norm_num
      linarith
    have := Int.cast_lt.mp this
    omega
  · have : (H : ℚ) < ((2 ^ 53 : ℤ) : ℚ) := by
      push_cast
      have : (1 : ℚ) / 2 ^ 12 < 1 / 2 := by norm_num
      linarith
    have := Int.cast_lt.mp this
    omega

/-- An odd number divides no power of two up to sign, except 1. -/
theorem odd_mul_pow {H : ℤ} {V K : ℕ} (h : (2 * H + 1) * (V : ℤ) = 2 ^ K) : V = 2 ^ K := by
  have h1 : IsCoprime (2 * H + 1) ((2 : ℤ) ^ K) := by
    apply IsCoprime.pow_right
    exact ⟨1, -H, by ring⟩
  have h2 : (2 * H + 1) ∣ (2 : ℤ) ^ K := ⟨V, h.symm⟩
  have h3 := h1.isUnit_of_dvd' (dvd_refl _) h2
  rcases Int.isUnit_iff.mp h3 with e | e
  · rw [e, one_mul] at h; exact_mod_cast h
  · rw [e] at h
    have : (0 : ℤ) < 2 ^ K := by positivity
    have : (0 : ℤ) ≤ V := by positivity
    omega

/-- Twelve-bit significands: rounding twice matters for 2731 only. -/
theorem inv_double_short {p V : ℕ} {H : ℤ} (hp : p ≤ 11) (hV2 : V < 2 ^ (p + 1))
    (h : 2 ^ 11 * |2 ^ (p + 54) - (2 * H + 1) * (V : ℤ)| ≤ V) (hV0 : 0 < V) : p = 11 ∧ V = 2731 := by
  have hV3 : V < 2 ^ 12 := lt_of_lt_of_le hV2 (Nat.pow_le_pow_right (by norm_num) (by omega))
  set j := 2 ^ (p + 54) - (2 * H + 1) * (V : ℤ) with hj
  have j0 : j ≠ 0 := by
    intro h0
    have : (2 * H + 1) * (V : ℤ) = 2 ^ (p + 54) := by omega
    have := odd_mul_pow this
    have h2 : 2 ^ 12 ≤ 2 ^ (p + 54) := Nat.pow_le_pow_right (by norm_num) (by omega)
    omega
  have j1 : |j| = 1 := by
    have := abs_pos.mpr j0
    have h4 : (V : ℤ) < 2 ^ 12 := by exact_mod_cast hV3
    norm_num at h h4
    omega
  have hV4 : 2 ^ 11 ≤ V := by rw [j1] at h; norm_num at h; omega
  have hp' : p = 11 := by
    by_contra hne
    have : 2 ^ (p + 1) ≤ 2 ^ 11 := Nat.pow_le_pow_right (by norm_num) (by omega)
    omega
  subst hp'
  refine ⟨rfl, ?_⟩
  have tab : ∀ i < 2048, ((2 : ℤ) ^ 65 - 1) % (2048 + i : ℕ) ≠ 0 ∧ (((2 : ℤ) ^ 65 + 1) % (2048 + i : ℕ) = 0 → 2048 + i = 2731) := by
    decide +kernel
  obtain ⟨t1, t2⟩ := tab (V - 2048) (by norm_num at hV4 hV3; omega)
  have eV : 2048 + (V - 2048) = V := by norm_num at hV4; omega
  rw [eV] at t1 t2
  rcases (abs_eq (by norm_num)).mp j1 with e | e
  · exact absurd (Int.emod_eq_zero_of_dvd ⟨2 * H + 1, by rw [hj] at e; linear_combination e⟩) t1
  · exact t2 (Int.emod_eq_zero_of_dvd ⟨2 * H + 1, by rw [hj] at e; linear_combination e⟩)

end Takum
