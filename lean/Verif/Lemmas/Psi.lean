import Verif.Rounding

/-!
# The position map of the takum format

`psi u` is the characteristic-plus-mantissa of the infinite bit string whose 4 bits `D R` and
following bits are those of the real number `u ∈ [0,16)`.  It is strictly increasing and piecewise
linear, and `psi (16 - u) = - psi u`.
-/

namespace Takum

/-- Number of characteristic bits for the four bits `DR`. -/
def rr (d : ℕ) : ℕ := if d < 8 then 7 - d else d - 8

/-- Characteristic bias for the four bits `DR`. -/
def bias (d : ℕ) : ℤ := if d < 8 then -2 ^ (8 - d) + 1 else 2 ^ (d - 8) - 1

theorem bias_succ : ∀ d < 15, bias (d + 1) = bias d + 2 ^ rr d := by decide
theorem bias_mono_aux : ∀ d < 16, ∀ d' < 16, d < d' → bias d + 2 ^ rr d ≤ bias d' := by decide
theorem bias_top : ∀ d < 16, bias d + 2 ^ rr d ≤ 255 := by decide
theorem bias_bot : ∀ d < 16, -255 ≤ bias d := by decide
theorem bias_symm : ∀ d < 16, bias (15 - d) + 2 ^ rr d = -bias d := by decide
theorem rr_symm : ∀ d < 16, rr (15 - d) = rr d := by decide
theorem bias_symm' : ∀ d < 16, 1 ≤ d → bias (16 - d) = -bias d := by decide
theorem rr_le : ∀ d < 16, rr d ≤ 7 := by decide

/-- Affine piece number `d`. -/
def piece (d : ℕ) (u : ℚ) : ℚ := bias d + 2 ^ rr d * (u - d)

def psi (u : ℚ) : ℚ := piece ⌊u⌋.toNat u

theorem psi_eq_piece {d : ℕ} {u : ℚ} (h1 : (d : ℚ) ≤ u) (h2 : u < d + 1) : psi u = piece d u := by
  have : ⌊u⌋ = d := by
    rw [Int.floor_eq_iff]; exact ⟨by exact_mod_cast h1, by exact_mod_cast h2⟩
  simp [psi, this]

theorem psi_eq_piece' {d : ℕ} (hd : d < 15) {u : ℚ} (h1 : (d : ℚ) ≤ u) (h2 : u ≤ d + 1) :
    psi u = piece d u := by
  rcases lt_or_eq_of_le h2 with h | h
  · exact psi_eq_piece h1 h
  · subst h
    rw [psi_eq_piece (d := d + 1) (by push_cast; exact le_refl _) (by push_cast; linarith)]
    have hb : (bias (d + 1) : ℚ) = bias d + 2 ^ rr d := by exact_mod_cast bias_succ d hd
    unfold piece
    rw [hb]; push_cast; ring

theorem exists_piece {u : ℚ} (h0 : 0 ≤ u) (h1 : u < 16) :
    ∃ d : ℕ, d < 16 ∧ (d : ℚ) ≤ u ∧ u < d + 1 := by
  obtain ⟨d, hd⟩ := Int.eq_ofNat_of_zero_le (Int.floor_nonneg.mpr h0)
  have a := Int.floor_le u
  have b := Int.lt_floor_add_one u
  rw [hd] at a b
  refine ⟨d, ?_, by exact_mod_cast a, by exact_mod_cast b⟩
  have : (d : ℚ) < 16 := lt_of_le_of_lt (by exact_mod_cast a) h1
  exact_mod_cast this

theorem psi_strictMono {u v : ℚ} (h0 : 0 ≤ u) (huv : u < v) (h1 : v < 16) : psi u < psi v := by
  obtain ⟨d, hd, a, b⟩ := exists_piece h0 (huv.trans h1)
  obtain ⟨d', hd', a', b'⟩ := exists_piece (h0.trans huv.le) h1
  rw [psi_eq_piece a b, psi_eq_piece a' b']
  have pd : (0 : ℚ) < 2 ^ rr d := by positivity
  have pd' : (0 : ℚ) < 2 ^ rr d' := by positivity
  have hle : d ≤ d' := by
    have : (d : ℚ) < d' + 1 := by linarith
    have : d < d' + 1 := by exact_mod_cast this
    omega
  unfold piece
  rcases eq_or_lt_of_le hle with h | h
  · subst h
    have := mul_lt_mul_of_pos_left (sub_lt_sub_right huv (d : ℚ)) pd
    linarith
  · have hb : (bias d : ℚ) + 2 ^ rr d ≤ bias d' := by exact_mod_cast bias_mono_aux d hd d' hd' h
    have h2 := mul_lt_mul_of_pos_left (show u - d < 1 by linarith) pd
    have h3 := mul_nonneg pd'.le (show 0 ≤ v - d' by linarith)
    linarith

theorem psi_mono {u v : ℚ} (h0 : 0 ≤ u) (huv : u ≤ v) (h1 : v < 16) : psi u ≤ psi v := by
  rcases eq_or_lt_of_le huv with h | h
  · rw [h]
  · exact (psi_strictMono h0 h h1).le

theorem psi_lt_iff {u v : ℚ} (hu : 0 ≤ u) (hu' : u < 16) (hv : 0 ≤ v) (hv' : v < 16) :
    psi u < psi v ↔ u < v := by
  constructor
  · intro h
    by_contra hh
    exact absurd (psi_mono hv (not_lt.mp hh) hu') (not_le.mpr h)
  · intro h; exact psi_strictMono hu h hv'

theorem psi_le_iff {u v : ℚ} (hu : 0 ≤ u) (hu' : u < 16) (hv : 0 ≤ v) (hv' : v < 16) :
    psi u ≤ psi v ↔ u ≤ v := by
  rw [← not_lt, ← not_lt, psi_lt_iff hv hv' hu hu']

theorem psi_inj {u v : ℚ} (hu : 0 ≤ u) (hu' : u < 16) (hv : 0 ≤ v) (hv' : v < 16)
    (h : psi u = psi v) : u = v :=
  le_antisymm ((psi_le_iff hu hu' hv hv').mp h.le) ((psi_le_iff hv hv' hu hu').mp h.ge)

theorem psi_lt_255 {u : ℚ} (h0 : 0 ≤ u) (h1 : u < 16) : psi u < 255 := by
  obtain ⟨d, hd, a, b⟩ := exists_piece h0 h1
  rw [psi_eq_piece a b]
  have pd : (0 : ℚ) < 2 ^ rr d := by positivity
  have h2 := mul_lt_mul_of_pos_left (show u - d < 1 by linarith) pd
  have hb : (bias d : ℚ) + 2 ^ rr d ≤ 255 := by exact_mod_cast bias_top d hd
  unfold piece; linarith

theorem psi_ge {u : ℚ} (h0 : 0 ≤ u) (h1 : u < 16) : -255 ≤ psi u := by
  obtain ⟨d, hd, a, b⟩ := exists_piece h0 h1
  rw [psi_eq_piece a b]
  have pd : (0 : ℚ) < 2 ^ rr d := by positivity
  have h2 := mul_nonneg pd.le (show 0 ≤ u - d by linarith)
  have hb : (-255 : ℚ) ≤ bias d := by exact_mod_cast bias_bot d hd
  unfold piece; linarith

theorem psi_symm {u : ℚ} (h0 : 0 < u) (h1 : u < 16) : psi (16 - u) = -psi u := by
  obtain ⟨d, hd, a, b⟩ := exists_piece h0.le h1
  rcases eq_or_lt_of_le a with h | h
  · -- u is an integer
    have hd1 : 1 ≤ d := by
      rcases Nat.eq_zero_or_pos d with h' | h'
      · subst h'; simp at h; linarith
      · exact h'
    have e1 : ((16 - d : ℕ) : ℚ) = 16 - u := by rw [Nat.cast_sub hd.le, ← h]; norm_num
    rw [psi_eq_piece a b, psi_eq_piece (d := 16 - d) e1.le (by rw [e1]; linarith)]
    unfold piece
    rw [e1, ← h]
    have hb : (bias (16 - d) : ℚ) = -bias d := by exact_mod_cast bias_symm' d hd hd1
    rw [hb]; ring
  · have e1 : ((15 - d : ℕ) : ℚ) = 15 - d := by rw [Nat.cast_sub (by omega)]; norm_num
    rw [psi_eq_piece a b, psi_eq_piece (d := 15 - d) (by rw [e1]; linarith) (by rw [e1]; linarith)]
    unfold piece
    rw [e1, rr_symm d hd]
    have hb : (bias (15 - d) : ℚ) = -bias d - 2 ^ rr d := by
      have := bias_symm d hd
      have : (bias (15 - d) : ℚ) + 2 ^ rr d = -bias d := by exact_mod_cast this
      linarith
    rw [hb]; ring

/-- Between two neighbouring multiples of `1/W` (W a positive integer) `psi` is affine, also at the
right end. -/
theorem psi_affine {W a : ℕ} (hW : 0 < W) (ha : a + 1 < 16 * W) {v : ℚ}
    (h1 : (a : ℚ) / W ≤ v) (h2 : v ≤ (a + 1 : ℚ) / W) :
    psi v = psi (a / W) + (v * W - a) * (psi ((a + 1) / W) - psi (a / W)) := by
  have hWq : (0 : ℚ) < W := by exact_mod_cast hW
  set d := a / W with hd
  have hd1 : d * W ≤ a := Nat.div_mul_le_self a W
  have hd2 : a < (d + 1) * W := by
    have := Nat.lt_div_mul_add (a := a) hW
    rw [add_mul, one_mul]; exact this
  have q1 : (d : ℚ) ≤ (a : ℚ) / W := by
    rw [le_div_iff₀ hWq]; exact_mod_cast hd1
  have q2 : ((a : ℚ) + 1) / W ≤ d + 1 := by
    rw [div_le_iff₀ hWq]
    have : a + 1 ≤ (d + 1) * W := hd2
    exact_mod_cast this
  have hdd : d < 16 := by
    rw [hd, Nat.div_lt_iff_lt_mul hW]; omega
  have P : ∀ w : ℚ, (a : ℚ) / W ≤ w → w ≤ ((a : ℚ) + 1) / W → psi w = piece d w := by
    intro w w1 w2
    rcases Nat.lt_or_ge d 15 with h | h
    · exact psi_eq_piece' h (q1.trans w1) (w2.trans q2)
    · have hd15 : d = 15 := by omega
      refine psi_eq_piece (q1.trans w1) (lt_of_le_of_lt w2 ?_)
      rw [div_lt_iff₀ hWq, hd15]
      have : ((a + 1 : ℕ) : ℚ) < ((16 * W : ℕ) : ℚ) := by exact_mod_cast ha
      push_cast at this ⊢; linarith
  have hlt : (a : ℚ) / W ≤ ((a : ℚ) + 1) / W := div_le_div_of_nonneg_right (by linarith) hWq.le
  rw [P v h1 h2, P (a / W) (le_refl _) hlt, P ((a + 1) / W) hlt (le_refl _)]
  unfold piece
  field_simp
  ring

/-- Rounding the position to the nearest multiple of `1/W` is rounding on the `psi` scale. -/
theorem psi_nearest {W : ℕ} (hW : 0 < W) {u : ℚ} (h0 : 0 ≤ u) (h1 : u < 16) {k : ℕ}
    (hk : rne (u * W) = k) (hk16 : k < 16 * W) {k' : ℕ} (hk' : k' < 16 * W) :
    |psi (k / W) - psi u| < |psi (k' / W) - psi u| ∨
      (|psi (k / W) - psi u| = |psi (k' / W) - psi u| ∧ (k' = k ∨ k % 2 = 0)) := by
  have hWq : (0 : ℚ) < W := by exact_mod_cast hW
  have rng : ∀ j : ℕ, j < 16 * W → 0 ≤ (j : ℚ) / W ∧ (j : ℚ) / W < 16 := by
    intro j hj
    refine ⟨by positivity, ?_⟩
    rw [div_lt_iff₀ hWq]; exact_mod_cast hj
  by_cases hkk : k' = k
  · subst hkk; right; exact ⟨rfl, Or.inl rfl⟩
  have hr := rne_isRne (u * W)
  rw [hk] at hr
  have habs : |u * W - k| ≤ 1 / 2 := by have := abs_sub_rne (u * W); rw [hk] at this; exact_mod_cast this
  have tie : |u * W - k| = 1 / 2 → k % 2 = 0 := by
    intro h
    rcases hr with h' | ⟨_, h'⟩
    · exfalso
      have : |u * W - k| < 1 / 2 := by exact_mod_cast h'
      linarith
    · omega
  -- split on the side on which u lies of k
  rcases le_total ((k : ℚ) / W) u with hku | hku
  · -- k/W ≤ u
    have e0 : 0 ≤ u * W - k := by
      rw [div_le_iff₀ hWq] at hku; linarith
    rw [abs_of_nonneg e0] at habs tie
    have d0 : psi (k / W) ≤ psi u := psi_mono (rng k hk16).1 hku h1
    rw [abs_of_nonpos (by linarith : psi (k / W) - psi u ≤ 0)]
    rcases Nat.lt_or_ge k' k with hlt | hge
    · -- k' < k: farther away on the same side
      left
      have : psi (k' / W) < psi (k / W) := by
        apply psi_strictMono (rng k' hk').1 _ (rng k hk16).2
        apply div_lt_div_of_pos_right _ hWq; exact_mod_cast hlt
      rw [abs_of_nonpos (by linarith)]; linarith
    · have hgt : k + 1 ≤ k' := by omega
      have hk1 : k + 1 < 16 * W := by omega
      have c1 : (((k : ℚ) + 1) / W) = (((k + 1 : ℕ) : ℚ) / W) := by push_cast; ring
      have hu1 : u ≤ ((k : ℚ) + 1) / W := by rw [le_div_iff₀ hWq]; linarith
      have haff := psi_affine hW hk1 hku hu1
      have hstep : psi ((k + 1) / W) ≤ psi (k' / W) := by
        rw [c1]
        apply psi_mono (rng _ hk1).1 _ (rng k' hk').2
        apply div_le_div_of_nonneg_right _ hWq.le; exact_mod_cast hgt
      have hgap : psi (k / W) < psi ((k + 1) / W) := by
        rw [c1]
        apply psi_strictMono (rng k hk16).1 _ (rng _ hk1).2
        apply div_lt_div_of_pos_right _ hWq; push_cast; linarith
      set g := psi ((k + 1) / W) - psi (k / W) with hg
      have gpos : 0 < g := by linarith
      have hle : (u * W - k) * g ≤ 1 / 2 * g := mul_le_mul_of_nonneg_right habs gpos.le
      have hge : 0 ≤ psi (k' / W) - psi u := by
        have : (u * W - k) * g ≤ 1 * g := by nlinarith
        linarith
      rw [abs_of_nonneg hge]
      rcases eq_or_lt_of_le habs with ht | ht
      · have hev := tie ht
        have : -(psi (k / W) - psi u) ≤ psi (k' / W) - psi u := by linarith
        rcases eq_or_lt_of_le this with h | h
        · right; exact ⟨h, Or.inr hev⟩
        · left; exact h
      · left
        have : (u * W - k) * g < 1 / 2 * g := mul_lt_mul_of_pos_right ht gpos
        linarith
  · -- u ≤ k/W
    have e0 : u * W - k ≤ 0 := by
      rw [le_div_iff₀ hWq] at hku; linarith
    rw [abs_of_nonpos e0] at habs tie
    have d0 : psi u ≤ psi (k / W) := psi_mono h0 hku (rng k hk16).2
    rw [abs_of_nonneg (by linarith : 0 ≤ psi (k / W) - psi u)]
    rcases Nat.lt_or_ge k k' with hlt | hge
    · left
      have : psi (k / W) < psi (k' / W) := by
        apply psi_strictMono (rng k hk16).1 _ (rng k' hk').2
        apply div_lt_div_of_pos_right _ hWq; exact_mod_cast hlt
      rw [abs_of_nonneg (by linarith)]; linarith
    · have hlt : k' < k := by omega
      obtain ⟨j, hj⟩ : ∃ j, k = j + 1 := ⟨k - 1, by omega⟩
      have hjk : k' ≤ j := by omega
      have hj1 : j + 1 < 16 * W := by omega
      have hjq : (k : ℚ) = j + 1 := by exact_mod_cast hj
      have hju : (j : ℚ) / W ≤ u := by rw [div_le_iff₀ hWq]; linarith
      have hku' : u ≤ ((j : ℚ) + 1) / W := by rw [← hjq]; exact hku
      have haff := psi_affine hW hj1 hju hku'
      rw [← hjq] at haff
      have hstep : psi (k' / W) ≤ psi (j / W) := by
        apply psi_mono (rng k' hk').1 _ (rng j (by omega)).2
        apply div_le_div_of_nonneg_right _ hWq.le; exact_mod_cast hjk
      have hgap : psi (j / W) < psi (k / W) := by
        apply psi_strictMono (rng j (by omega)).1 _ (rng k hk16).2
        apply div_lt_div_of_pos_right _ hWq; rw [hjq]; linarith
      set g := psi (k / W) - psi (j / W) with hg
      have gpos : 0 < g := by linarith
      have hle : (-(u * W - k)) * g ≤ 1 / 2 * g := mul_le_mul_of_nonneg_right habs gpos.le
      have haff2 : psi (k / W) - psi u = (-(u * W - k)) * g := by
        have : (u * W - j) = 1 - (-(u * W - k)) := by rw [hjq]; ring
        rw [haff, this]; ring
      have hle' : psi (k' / W) - psi u ≤ 0 := by
        have : psi u - psi (j / W) = (1 - (-(u * W - k))) * g := by
          rw [haff]; rw [hjq]; ring
        have : 0 ≤ (1 - (-(u * W - k))) * g := mul_nonneg (by linarith) gpos.le
        linarith
      rw [abs_of_nonpos hle']
      rcases eq_or_lt_of_le habs with ht | ht
      · have hev := tie ht
        have : psi (k / W) - psi u ≤ -(psi (k' / W) - psi u) := by
          have : psi (k / W) - psi u ≤ 1/2 * g := by linarith
          have h3 : psi u - psi (j / W) = g - (psi (k / W) - psi u) := by rw [hg]; ring
          linarith
        rcases eq_or_lt_of_le this with h | h
        · right; exact ⟨h, Or.inr hev⟩
        · left; exact h
      · left
        have : (-(u * W - k)) * g < 1 / 2 * g := mul_lt_mul_of_pos_right ht gpos
        have h3 : psi u - psi (j / W) = g - (psi (k / W) - psi u) := by rw [hg]; ring
        linarith

end Takum
