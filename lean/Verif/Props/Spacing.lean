import Verif.Lemmas.LinNear
import Verif.Lemmas.LogArith
import Verif.Props.BitOps

/-!
# C104: the precision is the distance to the next takum

`precision_value` (C23) counts bits.  Here the meaning of that number: the next linear takum is `2^(e - k)` away, where
`2^e` is the magnitude and `k` the precision; the next logarithmic takum differs by the factor `exp(2^-(k+1))`.
-/

namespace Takum
open Spec

theorem psi_next {n : ℕ} (hn : 5 ≤ n) {k : ℕ} (hk : k + 1 < 2 ^ (n - 1)) (hr : rr (k / 2 ^ (n - 5)) ≤ n - 5) :
    psi (((k + 1 : ℕ) : ℚ) / ((2 ^ (n - 5) : ℕ) : ℚ)) = psi ((k : ℚ) / ((2 ^ (n - 5) : ℕ) : ℚ)) +
        1 / 2 ^ (n - 5 - rr (k / 2 ^ (n - 5))) ∧
      ∃ j : ℤ, (j : ℚ) ≤ psi ((k : ℚ) / ((2 ^ (n - 5) : ℕ) : ℚ)) ∧ psi (((k + 1 : ℕ) : ℚ) / ((2 ^ (n - 5) : ℕ) : ℚ)) ≤ j + 1 := by
  set Wn := 2 ^ (n - 5) with hW
  have hWp : 0 < Wn := by positivity
  have hWq : (0 : ℚ) < (Wn : ℚ) := by exact_mod_cast hWp
  rw [pow16 (by omega)] at hk
  set d := k / Wn with hd
  have d1 : d * Wn ≤ k := Nat.div_mul_le_self _ _
  have d2 : k < (d + 1) * Wn := by
    have := Nat.lt_div_mul_add (a := k) (b := Wn) hWp
    rw [add_mul, one_mul]; exact this
  have d16 : d < 16 := by
    by_contra h
    have : 16 * Wn ≤ d * Wn := Nat.mul_le_mul_right _ (by omega)
    omega
  set v := k - d * Wn with hv
  set Q := 2 ^ (n - 5 - rr d) with hQ
  have hQp : 0 < Q := by positivity
  have hQW : Wn = 2 ^ rr d * Q := by rw [hW, hQ, ← pow_add]; congr 1; omega
  have hQq : (0 : ℚ) < (Q : ℚ) := by exact_mod_cast hQp
  have e1 : psi ((k : ℚ) / Wn) = bias d + (v : ℚ) / Q := by
    rw [psi_eq_piece (d := d)]
    · unfold piece
      have : (k : ℚ) = v + d * Wn := by rw [hv]; push_cast [Nat.cast_sub d1]; ring
      rw [this, hQW]; push_cast; field_simp; ring
    · rw [le_div_iff₀ hWq]; exact_mod_cast d1
    · rw [div_lt_iff₀ hWq]; exact_mod_cast d2
  have hk1 : ((k + 1 : ℕ) : ℚ) = v + 1 + d * Wn := by rw [hv]; push_cast [Nat.cast_sub d1]; ring
  have e2 : psi (((k + 1 : ℕ) : ℚ) / Wn) = bias d + ((v : ℚ) + 1) / Q := by
    have a1 : (d : ℚ) ≤ ((k + 1 : ℕ) : ℚ) / Wn := by
      rw [le_div_iff₀ hWq, hk1]; nlinarith [(Nat.cast_nonneg v : (0 : ℚ) ≤ v)]
    have a2 : ((k + 1 : ℕ) : ℚ) / Wn ≤ d + 1 := by
      rw [div_le_iff₀ hWq]; exact_mod_cast d2
    have e : psi (((k + 1 : ℕ) : ℚ) / Wn) = piece d (((k + 1 : ℕ) : ℚ) / Wn) := by
      by_cases hd15 : d < 15
      · exact psi_eq_piece' hd15 a1 a2
      · apply psi_eq_piece a1
        rw [div_lt_iff₀ hWq]
        have : d = 15 := by omega
        rw [this]
        exact_mod_cast (by omega : k + 1 < (15 + 1) * Wn)
    rw [e]
    unfold piece
    rw [hk1, hQW]; push_cast; field_simp; ring
  have hQc : (2 : ℚ) ^ (n - 5 - rr d) = Q := by rw [hQ]; push_cast; rfl
  refine ⟨by rw [e1, e2, hQc, add_assoc, ← add_div], bias d + (v / Q : ℕ), ?_, ?_⟩
  · rw [e1, Int.cast_add, Int.cast_natCast]
    have : ((v / Q : ℕ) : ℚ) ≤ (v : ℚ) / Q := by
      rw [le_div_iff₀ hQq]; exact_mod_cast Nat.div_mul_le_self v Q
    linarith
  · rw [e2, Int.cast_add, Int.cast_natCast]
    have : ((v : ℚ) + 1) / Q ≤ ((v / Q : ℕ) : ℚ) + 1 := by
      rw [div_le_iff₀ hQq]
      have := Nat.lt_div_mul_add (a := v) (b := Q) hQp
      have h3 : v + 1 ≤ (v / Q + 1) * Q := by rw [add_mul, one_mul]; omega
      exact_mod_cast h3
    linarith

/-- Neighbours of the same sign. -/
theorem next_low {n : ℕ} (hn : 2 ≤ n) {t : BitVec n} (h : (t + 1#n).msb = t.msb) (h0 : t + 1#n ≠ 0#n) : low (t + 1#n) = low t + 1 := by
  have h1 : (t + 1#n).toNat = (t.toNat + 1) % 2 ^ n := by
    rw [BitVec.toNat_add, BitVec.toNat_ofNat, Nat.add_mod_mod]
  have hp : 2 ^ n = 2 * 2 ^ (n - 1) := by rw [← pow_succ']; congr 1; omega
  have hlt := t.isLt
  have h2 : t.toNat + 1 < 2 ^ n := by
    by_contra hc
    apply h0
    apply BitVec.eq_of_toNat_eq
    rw [h1, show t.toNat + 1 = 2 ^ n by omega]; simp
  rw [Nat.mod_eq_of_lt h2] at h1
  have m1 := BitVec.msb_eq_decide t
  have m2 := BitVec.msb_eq_decide (t + 1#n)
  rw [h, m1, h1, decide_eq_decide] at m2
  unfold low
  rw [h1]
  rcases lt_or_ge t.toNat (2 ^ (n - 1)) with hc | hc
  · have hc' : t.toNat + 1 < 2 ^ (n - 1) := by
      by_contra h'
      have := m2.mpr (not_lt.mp h'); omega
    rw [Nat.mod_eq_of_lt hc, Nat.mod_eq_of_lt hc']
  · rw [Nat.mod_eq_sub_mod hc, Nat.mod_eq_sub_mod (by omega : t.toNat + 1 ≥ 2 ^ (n - 1)), Nat.mod_eq_of_lt (by omega),
      Nat.mod_eq_of_lt (by omega)]
    omega

/-- On the scale of the positions. -/
theorem ell_step {w : W} {t : T w} {k : ℕ} (hk : precision w t = .ok k) (h : w ≠ .w8 ∨ 1 ≤ k) (ht : t + 1#w.n ≠ 0#w.n)
    (hs : (t + 1#w.n).msb = t.msb) :
    ell (t + 1#w.n) = ell t + sg t.msb / 2 ^ k ∧
      ∃ j : ℤ, (j : ℚ) ≤ ell t ∧ ell t ≤ j + 1 ∧ (j : ℚ) ≤ ell (t + 1#w.n) ∧ ell (t + 1#w.n) ≤ j + 1 := by
  have h8 := w.n_pos
  have hl := next_low (by omega) hs ht
  rw [precision_spec, Except.ok.injEq] at hk
  have hr : rr (low t / 2 ^ (w.n - 5)) = r t := by rw [r_eq (by omega)]; rfl
  have h7 := r_le (by omega : 5 ≤ w.n) t
  have hrn : r t ≤ w.n - 5 := by
    rcases h with h | h
    · have : 12 ≤ w.n := by cases w <;> first | exact absurd rfl h | decide
      omega
    · omega
  obtain ⟨e, j, j1, j2⟩ := psi_next (n := w.n) (k := low t) (by omega) (by rw [← hl]; exact low_lt _) (by rw [hr]; exact hrn)
  have p1 : pos t = (low t : ℚ) / ((2 ^ (w.n - 5) : ℕ) : ℚ) := rfl
  have p2 : pos (t + 1#w.n) = ((low t + 1 : ℕ) : ℚ) / ((2 ^ (w.n - 5) : ℕ) : ℚ) := by unfold pos; rw [hl]
  rw [← p1, ← p2, hr, hk] at e
  rw [← p1] at j1
  rw [← p2] at j2
  have hp : (0 : ℚ) < 1 / 2 ^ k := by positivity
  rw [ell_sg (by omega), ell_sg (by omega), hs, e]
  rw [e] at j2
  cases t.msb
  · simp only [sg, Bool.false_eq_true, if_false, one_mul]
    exact ⟨trivial, j, by linarith, by linarith, by linarith, by linarith⟩
  · simp only [sg, if_true]
    refine ⟨by ring, -(j + 1), ?_, ?_, ?_, ?_⟩ <;> push_cast <;> linarith

/-- C104, linear takums: the next takum is `2^(e - k)` away, `k` the precision and `2^e` the magnitude. -/
theorem precision_spacing_lin (w : W) (t : T w) (k : ℕ) (hk : precision w t = .ok k) (h : w ≠ .w8 ∨ 1 ≤ k) (x y : ℚ)
    (hx : linVal t = some x) (hy : linVal (t + 1#w.n) = some y) (h0 : 0 < x * y) :
    ∃ e : ℤ, y - x = (2 : ℚ) ^ (e - k) ∧ (2 : ℚ) ^ e ≤ |x| ∧ |x| ≤ (2 : ℚ) ^ (e + 1) ∧ (2 : ℚ) ^ e ≤ |y| ∧ |y| ≤ (2 : ℚ) ^ (e + 1) := by
  have h8 := w.n_pos
  have n1 : t ≠ nar w.n := by rintro rfl; simp [linVal] at hx
  have n2 : t + 1#w.n ≠ nar w.n := by intro e; rw [e] at hy; simp [linVal] at hy
  have z1 : t ≠ 0#w.n := by
    rintro rfl
    have : x = 0 := by simpa [linVal, n1, eq_comm] using hx
    rw [this, zero_mul] at h0; exact lt_irrefl _ h0
  have z2 : t + 1#w.n ≠ 0#w.n := by
    intro e
    rw [e] at hy n2
    have : y = 0 := by simpa [linVal, n2, eq_comm] using hy
    rw [this, mul_zero] at h0; exact lt_irrefl _ h0
  rw [linVal_sg (by omega) ⟨z1, n1⟩, Option.some.injEq] at hx
  rw [linVal_sg (by omega) ⟨z2, n2⟩, Option.some.injEq] at hy
  have l1 := lam_pos (ell t)
  have l2 := lam_pos (ell (t + 1#w.n))
  have hs : (t + 1#w.n).msb = t.msb := by
    rw [← hx, ← hy] at h0
    by_contra hc
    have hneg : sg t.msb * sg (t + 1#w.n).msb = -1 := by
      revert hc
      cases (t + 1#w.n).msb <;> cases t.msb <;> simp [sg]
    have : sg t.msb * lam (ell t) * (sg (t + 1#w.n).msb * lam (ell (t + 1#w.n))) = -(lam (ell t) * lam (ell (t + 1#w.n))) := by
      linear_combination (lam (ell t) * lam (ell (t + 1#w.n))) * hneg
    rw [this] at h0
    have := mul_pos l1 l2
    linarith
  obtain ⟨e, j, j1, j2, j3, j4⟩ := ell_step hk h z2 hs
  have l : ∀ i : ℤ, lam (i : ℚ) = (2 : ℚ) ^ i := by intro i; unfold lam; simp
  have l' : lam ((j : ℚ) + 1) = (2 : ℚ) ^ (j + 1) := by rw [← l]; congr 1; push_cast; ring
  have mono := lam_strictMono.monotone
  rw [← hx, ← hy, hs, sg_abs, sg_abs, abs_of_pos l1, abs_of_pos l2]
  refine ⟨j, ?_, by rw [← l]; exact mono j1, by rw [← l']; exact mono j2, by rw [← l]; exact mono j3, by rw [← l']; exact mono j4⟩
  rw [lam_affine j1 j2, lam_affine j3 j4, e, zpow_sub₀ (by norm_num), zpow_natCast]
  cases t.msb
  · simp only [sg, Bool.false_eq_true, if_false]; field_simp; ring
  · simp only [sg, if_true]; field_simp; ring

/-- C104: a number between two neighbouring linear takums of precision `k` is at most `2^-(k+1)` of itself away from one
of them. -/
theorem precision_error_lin (w : W) (t : T w) (k : ℕ) (hk : precision w t = .ok k) (h : w ≠ .w8 ∨ 1 ≤ k) (x y : ℚ)
    (hx : linVal t = some x) (hy : linVal (t + 1#w.n) = some y) (h0 : 0 < x * y) (v : ℝ) (h1 : x ≤ v) (h2 : v ≤ y) :
    |v - x| ≤ |v| / 2 ^ (k + 1) ∨ |v - y| ≤ |v| / 2 ^ (k + 1) := by
  obtain ⟨e, e1, e2, -, e3, -⟩ := precision_spacing_lin w t k hk h x y hx hy h0
  have z : (0 : ℝ) < (2 : ℝ) ^ e := zpow_pos (by norm_num) _
  have e1' : (y : ℝ) - x = (2 : ℝ) ^ e / 2 ^ k := by
    have : ((y - x : ℚ) : ℝ) = (((2 : ℚ) ^ (e - k) : ℚ) : ℝ) := by rw [e1]
    push_cast at this
    rw [this, zpow_sub₀ (by norm_num), zpow_natCast]
  have e2' : (2 : ℝ) ^ e ≤ |(x : ℝ)| := by have := (Rat.cast_le (K := ℝ)).mpr e2; push_cast at this; exact this
  have e3' : (2 : ℝ) ^ e ≤ |(y : ℝ)| := by have := (Rat.cast_le (K := ℝ)).mpr e3; push_cast at this; exact this
  have hv : (2 : ℝ) ^ e ≤ |v| := by
    have h0' : (0 : ℝ) < x * y := by exact_mod_cast h0
    rcases lt_trichotomy (x : ℝ) 0 with hn | hn | hn
    · have : (y : ℝ) < 0 := by by_contra hc; nlinarith
      rw [abs_of_neg this] at e3'
      rw [abs_of_neg (by linarith)]; linarith
    · rw [hn, zero_mul] at h0'; exact absurd h0' (lt_irrefl _)
    · rw [abs_of_pos hn] at e2'
      rw [abs_of_pos (by linarith)]; linarith
  have hd : ((y : ℝ) - x) / 2 ≤ |v| / 2 ^ (k + 1) := by
    rw [e1', div_div, ← pow_succ]
    exact div_le_div_of_nonneg_right hv (by positivity)
  rw [abs_of_nonneg (sub_nonneg.mpr h1), abs_of_nonpos (sub_nonpos.mpr h2)]
  rcases le_total v ((x + y) / 2) with hc | hc
  · left; linarith
  · right; linarith

/-- C104, logarithmic takums: the next takum differs by the factor `exp(2^-(k+1))`, `k` the precision. -/
theorem precision_spacing_log (w : W) (t : T w) (k : ℕ) (hk : precision w t = .ok k) (h : w ≠ .w8 ∨ 1 ≤ k) (x y : ℝ)
    (hx : logVal t = some x) (hy : logVal (t + 1#w.n) = some y) (h0 : 0 < x * y) :
    (0 < x → y = x * Real.exp (1 / 2 ^ (k + 1))) ∧ (x < 0 → x = y * Real.exp (1 / 2 ^ (k + 1))) := by
  have h8 := w.n_pos
  have n1 : t ≠ nar w.n := by rintro rfl; simp [logVal] at hx
  have n2 : t + 1#w.n ≠ nar w.n := by intro e; rw [e] at hy; simp [logVal] at hy
  have z1 : t ≠ 0#w.n := by
    rintro rfl
    have : x = 0 := by simpa [logVal, n1, eq_comm] using hx
    rw [this, zero_mul] at h0; exact lt_irrefl _ h0
  have z2 : t + 1#w.n ≠ 0#w.n := by
    intro e
    rw [e] at hy n2
    have : y = 0 := by simpa [logVal, n2, eq_comm] using hy
    rw [this, mul_zero] at h0; exact lt_irrefl _ h0
  rw [logVal_regular (by omega) ⟨z1, n1⟩, Option.some.injEq] at hx
  rw [logVal_regular (by omega) ⟨z2, n2⟩, Option.some.injEq] at hy
  have l1 := logG_pos (ell t)
  have l2 := logG_pos (ell (t + 1#w.n))
  have hs : (t + 1#w.n).msb = t.msb := by
    rw [← hx, ← hy] at h0
    by_contra hc
    have hneg : ((sg t.msb : ℚ) : ℝ) * ((sg (t + 1#w.n).msb : ℚ) : ℝ) = -1 := by
      revert hc
      cases (t + 1#w.n).msb <;> cases t.msb <;> simp [sg]
    have : ((sg t.msb : ℚ) : ℝ) * logG (ell t) * (((sg (t + 1#w.n).msb : ℚ) : ℝ) * logG (ell (t + 1#w.n))) =
        -(logG (ell t) * logG (ell (t + 1#w.n))) := by
      linear_combination (logG (ell t) * logG (ell (t + 1#w.n))) * hneg
    rw [this] at h0
    have := mul_pos l1 l2
    linarith
  obtain ⟨e, -⟩ := ell_step hk h z2 hs
  rw [← hx, ← hy, hs, logG_exp, logG_exp, e]
  have hp := Real.exp_pos ((ell t : ℝ) / 2)
  cases t.msb
  · simp only [sg, Bool.false_eq_true, if_false]
    refine ⟨fun _ => ?_, fun hc => ?_⟩
    · rw [mul_assoc, ← Real.exp_add]; congr 2; push_cast; rw [pow_succ]; field_simp
    · push_cast at hc; linarith
  · simp only [sg, if_true]
    refine ⟨fun hc => ?_, fun _ => ?_⟩
    · push_cast at hc; linarith
    · rw [mul_assoc, ← Real.exp_add]; congr 2; push_cast; rw [pow_succ]; field_simp; ring

/-- The precision of `2` and `2 + 2^-25` for 32 bits is 26; for 8 bits and precision 0 the next takum may be farther away. -/
example : precision .w32 0x48000000#32 = .ok 26 ∧ linVal (0x48000000#32) = some 2 ∧ linVal (0x48000001#32) = some (2 + 1 / 2 ^ 25) := by
  decide +kernel
example : precision .w8 0x7e#8 = .ok 0 ∧ linVal (0x7e#8) = some (2 ^ 223) ∧ linVal (0x7f#8) = some (2 ^ 239) := by
  decide +kernel

end Takum
