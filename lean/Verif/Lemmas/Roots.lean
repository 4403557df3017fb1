import Verif.Lemmas.LogArith
import Verif.Props.Widths

/-! # Encoding both signs of a number off the grid -/

namespace Takum
open Spec

/-- If two grid points around `q` are encoded alike, flipping the sign flag negates the result. -/
theorem enc_neg_sandwich {w : W} (s : Bool) {l : Fl} {q : ℚ} (hl : l.Is q) (hq : w.encF.Rep q) {g1 g2 : ℚ}
    (o1 : OnGrid w g1) (o2 : OnGrid w g2) (h1 : g1 ≤ q) (h2 : q ≤ g2)
    (he : nearK w.n (w.encU g1) = nearK w.n (w.encU g2)) :
    ∃ t : T w, fromSAndL w s l = .ok t ∧ fromSAndL w (!s) l = .ok (-t) := by
  have h8 := w.n_pos
  obtain ⟨b1, b2⟩ := encB_lt w
  have neg : ∀ g, OnGrid w g → nearK w.n (w.encU (-g)) = 2 ^ (w.n - 1) - nearK w.n (w.encU g) := by
    intro g hg
    rw [encU_grid hg.neg, encU_grid hg, clampB_neg (by linarith), psiInv_neg, nearK_symm (by omega)]
    exact lt_of_le_of_lt (clampB_abs (by linarith) _) b1
  have key1 : nearK w.n (w.encU q) = nearK w.n (w.encU g1) :=
    le_antisymm (by rw [he]; exact nearK_mono _ (encU_mono w h2)) (nearK_mono _ (encU_mono w h1))
  have key2 : nearK w.n (w.encU (-q)) = 2 ^ (w.n - 1) - nearK w.n (w.encU g1) := by
    apply le_antisymm
    · rw [← neg g1 o1]; exact nearK_mono _ (encU_mono w (by linarith))
    · rw [he, ← neg g2 o2]; exact nearK_mono _ (encU_mono w (by linarith))
  have hlt := nearK_lt (n := w.n) (by omega) (w.encU g1)
  refine ⟨_, fromSAndL_spec w s hl hq, ?_⟩
  rw [fromSAndL_spec w _ hl hq, neg_mkT (by omega) s (nearK_pos _ _) (nearK_lt (by omega) _)]
  cases s
  · rw [show sg false * q = q by simp [sg], show sg (!false) * q = -q by simp [sg], key1, key2]
  · rw [show sg true * q = -q by simp [sg], show sg (!true) * q = q by simp [sg], key1, key2,
      Nat.sub_sub_self hlt.le]

theorem psiInv_half {y : ℚ} (h : |y| ≤ 1 / 2) : psiInv y = 8 + y := by
  obtain ⟨h1, h2⟩ := abs_le.mp h
  have : psi (8 + y) = y := by
    rcases le_or_gt 0 y with h0 | h0
    · rw [psi_eq_piece (d := 8) (by push_cast; linarith) (by push_cast; linarith)]
      have : (bias 8 : ℚ) = 0 ∧ rr 8 = 0 := by decide +kernel
      unfold piece; rw [this.1, this.2]; push_cast; ring
    · rw [psi_eq_piece (d := 7) (by push_cast; linarith) (by push_cast; linarith)]
      have : (bias 7 : ℚ) = -1 ∧ rr 7 = 0 := by decide +kernel
      unfold piece; rw [this.1, this.2]; push_cast; ring
  conv_lhs => rw [← this]
  exact psiInv_psi (by linarith) (by linarith)

/-- Encoding of a grid point near 0. -/
theorem nearK_encU_half {w : W} {g : ℚ} (hg : OnGrid w g) (h : |g| ≤ 1 / 2) {k : ℤ}
    (hk : |g * 2 ^ (w.n - 5) - k| < 1 / 2) : (nearK w.n (w.encU g) : ℤ) = 2 ^ (w.n - 2) + k := by
  have h8 := w.n_pos
  obtain ⟨b1, b2⟩ := encB_lt w
  have hP : (2 : ℚ) ^ (w.n - 2) = 8 * 2 ^ (w.n - 5) := by
    rw [show w.n - 2 = (w.n - 5) + 3 by omega, pow_add]; norm_num; ring
  have hPz : (2 : ℤ) ^ (w.n - 2) = 8 * 2 ^ (w.n - 5) := by exact_mod_cast hP
  have h0 : (1 : ℤ) ≤ 2 ^ (w.n - 5) := one_le_pow₀ (by norm_num)
  rw [encU_grid hg, clampB_of_abs_le (by linarith), psiInv_half h]
  have hr : rne ((8 + g) * ((2 ^ (w.n - 5) : ℕ) : ℚ)) = 2 ^ (w.n - 2) + k := by
    apply IsRne.eq
    left
    push_cast
    rw [hP, show (8 + g) * 2 ^ (w.n - 5) - (8 * 2 ^ (w.n - 5) + (k : ℚ)) = g * 2 ^ (w.n - 5) - k by ring]
    exact hk
  have kb : |(k : ℚ)| < 2 ^ (w.n - 5) + 1 := by
    have : |g * 2 ^ (w.n - 5)| ≤ 1 / 2 * 2 ^ (w.n - 5) := by
      rw [abs_mul, abs_of_pos (show (0 : ℚ) < 2 ^ (w.n - 5) by positivity)]
      gcongr
    have a := abs_lt.mp hk
    have b := abs_le.mp this
    have hp : (0 : ℚ) < 2 ^ (w.n - 5) := by positivity
    rw [abs_lt]; constructor <;> linarith
  have kb' : |k| < 2 ^ (w.n - 5) + 1 := by exact_mod_cast kb
  have ⟨k1, k2⟩ := abs_lt.mp kb'
  have hM := kMax_add_one w.n
  have hM2 : 2 ^ (w.n - 1) = 2 * 2 ^ (w.n - 2) := two_pow_sub_two (by omega)
  have hMz : (kMax w.n : ℤ) + 1 = 2 * 2 ^ (w.n - 2) := by exact_mod_cast hM.trans hM2
  unfold nearK
  rw [hr, Int.toNat_of_nonneg (by omega)]
  generalize (2 : ℤ) ^ (w.n - 2) = A at *
  generalize (2 : ℤ) ^ (w.n - 5) = B at *
  omega

/-- Away from the midpoints of takums near 1, flipping the sign flag negates the result. -/
theorem enc_neg_off {w : W} (s : Bool) {l : Fl} {q : ℚ} (hl : l.Is q) (hq : w.encF.Rep q) {k : ℤ} {g1 g2 : ℚ}
    (o1 : OnGrid w g1) (o2 : OnGrid w g2) (h1 : g1 ≤ q) (h2 : q ≤ g2) (a1 : |g1| ≤ 1 / 2) (a2 : |g2| ≤ 1 / 2)
    (k1 : |g1 * 2 ^ (w.n - 5) - k| < 1 / 2) (k2 : |g2 * 2 ^ (w.n - 5) - k| < 1 / 2) :
    ∃ t : T w, fromSAndL w s l = .ok t ∧ fromSAndL w (!s) l = .ok (-t) := by
  apply enc_neg_sandwich s hl hq o1 o2 h1 h2
  have e1 := nearK_encU_half o1 a1 k1
  have e2 := nearK_encU_half o2 a2 k2
  omega

/-- A large enough number of a format is a multiple of a fixed power of two. -/
theorem Fmt.Rep.multiple {F : Fmt} {q : ℚ} (h : F.Rep q) {e : ℤ} (hq : (2 : ℚ) ^ (e + F.prec - 1) ≤ |q|) :
    ∃ j : ℤ, q = j * (2 : ℚ) ^ e := by
  obtain ⟨m, e', h1, h2, h3⟩ := h
  have : e ≤ e' := by
    by_contra hc
    push Not at hc
    have hm : |(m : ℚ)| < 2 ^ F.prec := by exact_mod_cast h2
    have : |q| < (2 : ℚ) ^ (e + F.prec - 1) := by
      rw [h1, abs_mul, abs_of_pos (zpow_pos (by norm_num : (0 : ℚ) < 2) e')]
      calc |(m : ℚ)| * 2 ^ e' < 2 ^ F.prec * 2 ^ e' := by gcongr
        _ = (2 : ℚ) ^ (e' + F.prec) := by rw [zpow_add₀ (by norm_num), zpow_natCast]; ring
        _ ≤ _ := zpow_le_zpow_right₀ (by norm_num) (by omega)
    linarith
  obtain ⟨d, hd⟩ := Int.eq_ofNat_of_zero_le (sub_nonneg.mpr this)
  refine ⟨m * 2 ^ d, ?_⟩
  rw [h1, show e' = e + d by omega, zpow_add₀ (by norm_num), zpow_natCast]; push_cast; ring

theorem onGrid_of_multiple {w : W} {q : ℚ} {g : ℕ} (hg : g ≤ w.grid) {j : ℤ} (h : q = j * (2 : ℚ) ^ (-(g : ℤ))) :
    OnGrid w q := by
  refine OnGrid.of_le hg (j := j) ?_
  rw [h, zpow_neg, zpow_natCast]; field_simp

/-- Flipping the sign flag negates the result, for a number in `float` and 16 bits. -/
theorem enc_neg_16 (s : Bool) {l : Fl} {q : ℚ} (hl : l.Is q) (hq : b32.Rep q) :
    ∃ t : T .w16, fromSAndL .w16 s l = .ok t ∧ fromSAndL .w16 (!s) l = .ok (-t) := by
  have hq' : W.w16.encF.Rep q := hq.mono (by decide) (by decide)
  rcases le_or_gt ((2 : ℚ) ^ (-21 : ℤ)) |q| with h | h
  · obtain ⟨j, hj⟩ := hq.multiple (e := -((44 : ℕ) : ℤ)) (by simpa [b32] using h)
    exact enc_neg_grid s hl hq' (onGrid_of_multiple (by decide) hj)
  · obtain ⟨h1, h2⟩ := abs_lt.mp h
    refine enc_neg_off s hl hq' (k := 0) (g1 := -(2 : ℚ) ^ (-21 : ℤ)) (g2 := (2 : ℚ) ^ (-21 : ℤ)) ?_ ?_ h1.le h2.le ?_ ?_ ?_ ?_
    · exact onGrid_of_multiple (g := 21) (j := -1) (by decide) (by norm_num)
    · exact onGrid_of_multiple (g := 21) (j := 1) (by decide) (by norm_num)
    all_goals norm_num [abs_of_pos, abs_of_neg]

/-- The same for 8 bits, where the number is encoded with 32 bits first. -/
theorem enc_neg_8 (s : Bool) {l : Fl} {q : ℚ} (hl : l.Is q) (hq : b32.Rep q) :
    ∃ t : T .w8, fromSAndL .w8 s l = .ok t ∧ fromSAndL .w8 (!s) l = .ok (-t) := by
  have hq' : W.w32.encF.Rep q := hq.mono (by decide) (by decide)
  have key : ∃ t : T .w32, fromSAndL .w32 s l = .ok t ∧ fromSAndL .w32 (!s) l = .ok (-t) := by
    rcases le_or_gt ((2 : ℚ) ^ (-41 : ℤ)) |q| with h | h
    · obtain ⟨j, hj⟩ := hq.multiple (e := -((64 : ℕ) : ℤ)) (by simpa [b32] using h)
      exact enc_neg_grid s hl hq' (onGrid_of_multiple (by decide) hj)
    · obtain ⟨h1, h2⟩ := abs_lt.mp h
      refine enc_neg_off s hl hq' (k := 0) (g1 := -(2 : ℚ) ^ (-41 : ℤ)) (g2 := (2 : ℚ) ^ (-41 : ℤ)) ?_ ?_ h1.le h2.le ?_ ?_ ?_ ?_
      · exact onGrid_of_multiple (g := 41) (j := -1) (by decide) (by norm_num)
      · exact onGrid_of_multiple (g := 41) (j := 1) (by decide) (by norm_num)
      all_goals norm_num [abs_of_pos, abs_of_neg]
  obtain ⟨t, e1, e2⟩ := key
  obtain ⟨v, r1, r2⟩ := narrow_neg (a := .w32) (b := .w8) (by decide) t
  refine ⟨v, ?_, ?_⟩
  · show takum8FromSAndL s l = _
    unfold takum8FromSAndL
    rw [show takum32FromSAndL s l = .ok t from e1, ok_bind, r1]
  · show takum8FromSAndL (!s) l = _
    unfold takum8FromSAndL
    rw [show takum32FromSAndL (!s) l = .ok (-t) from e2, ok_bind, r2]

/-- 32 bits: a number `a·2^-27 / N`, rounded to `double`. -/
theorem enc_neg_32 (s : Bool) {l : Fl} {a N : ℤ} (ha : |a| < 2 ^ 35) (hN : N ≠ 0)
    (hl : l.Is (b64.rq ((a : ℚ) * (2 : ℚ) ^ (-27 : ℤ) / N))) :
    ∃ t : T .w32, fromSAndL .w32 s l = .ok t ∧ fromSAndL .w32 (!s) l = .ok (-t) := by
  set x : ℚ := (a : ℚ) * (2 : ℚ) ^ (-27 : ℤ) / N with hx
  have hq : b64.Rep (b64.rq x) := Fmt.rq_rep _ (by decide) x
  have hq' : W.w32.encF.Rep (b64.rq x) := hq.mono (by decide) (by decide)
  rcases le_or_gt ((2 : ℚ) ^ (-12 : ℤ)) |b64.rq x| with h | h
  · obtain ⟨j, hj⟩ := hq.multiple (e := -((64 : ℕ) : ℤ)) (by simpa [b64] using h)
    exact enc_neg_grid s hl hq' (onGrid_of_multiple (by decide) hj)
  have hN' : (N : ℚ) ≠ 0 := by exact_mod_cast hN
  have hNp : (0 : ℚ) < |(N : ℚ)| := abs_pos.mpr hN'
  -- `x` is small itself
  have hxs : |x| < (2 : ℚ) ^ (-12 : ℤ) := by
    by_contra hc
    push Not at hc
    have r : b64.Rep ((2 : ℚ) ^ (-12 : ℤ)) := Fmt.Rep.zpow (by decide) (by decide)
    have := b64.le_rq (by decide) r hc
    rw [Fmt.abs_rq] at this
    linarith
  set k : ℤ := rne (x * 2 ^ 27) with hk
  have hxN : x * 2 ^ 27 = a / N := by
    rw [hx, zpow_neg]; norm_num; field_simp
  have hkr : |x * 2 ^ 27 - k| ≤ 1 / 2 := by
    rcases rne_isRne (x * 2 ^ 27) with h | ⟨h, _⟩
    · exact h.le
    · exact h.le
  have kb : |(k : ℚ)| ≤ 2 ^ 15 + 1 := by
    have h1 : |x * 2 ^ 27| ≤ 2 ^ 15 := by
      rw [abs_mul, abs_of_pos (show (0 : ℚ) < 2 ^ 27 by norm_num)]
      have : (2 : ℚ) ^ (-12 : ℤ) = 1 / 4096 := by norm_num
      rw [this] at hxs
      linarith
    have a := abs_le.mp hkr
    have b := abs_le.mp h1
    rw [abs_le]; constructor <;> linarith
  -- rounding to double does not move anything over a multiple of `2^-64`
  have rep64 : ∀ j : ℤ, |(j : ℚ)| < 2 ^ 53 → b64.Rep ((j : ℚ) * (2 : ℚ) ^ (-64 : ℤ)) := by
    intro j hj
    exact ⟨j, -64, rfl, by exact_mod_cast hj, by decide⟩
  by_cases htie : |x * 2 ^ 27 - k| = 1 / 2
  · -- a midpoint is on the grid
    have : ∃ j : ℤ, x = j * (2 : ℚ) ^ (-28 : ℤ) := by
      rcases abs_choice (x * 2 ^ 27 - k) with h' | h' <;> rw [h'] at htie
      · exact ⟨2 * k + 1, by push_cast; norm_num; linarith⟩
      · exact ⟨2 * k - 1, by push_cast; norm_num; linarith⟩
    obtain ⟨j, hj⟩ := this
    have : b64.Rep x := by
      refine Fmt.Rep.of_lt j (-28) hj (by decide) (hxs.trans ?_)
      norm_num [b64]
    rw [b64.rq_of_rep this] at hl hq'
    exact enc_neg_grid s hl hq' (onGrid_of_multiple (g := 28) (by decide) hj)
  have hlt : |x * 2 ^ 27 - k| < 1 / 2 := lt_of_le_of_ne hkr htie
  -- distance of the midpoints
  have hd : |x * 2 ^ 27 - k| ≤ 1 / 2 - 1 / 2 ^ 37 := by
    rcases le_or_gt |(N : ℚ)| (2 ^ 36) with hNb | hNb
    · have hint : |2 * (a - k * N)| < |N| := by
        have : |(2 * (a - k * N) : ℚ)| < |(N : ℚ)| := by
          rw [hxN] at hlt
          have e : (2 * (a - k * N) : ℚ) = 2 * N * (a / N - k) := by field_simp
          rw [e, abs_mul, abs_mul, abs_two]
          nlinarith
        exact_mod_cast this
      have hint' : |2 * (a - k * N)| + 1 ≤ |N| := hint
      have hq : |(2 * (a - k * N) : ℚ)| + 1 ≤ |(N : ℚ)| := by exact_mod_cast hint'
      have e : x * 2 ^ 27 - k = 2 * (a - k * N) / (2 * N) := by rw [hxN]; field_simp
      rw [e, abs_div, abs_mul (2 : ℚ) N, abs_two, div_le_iff₀ (by positivity)]
      have : 1 / 2 ^ 37 * (2 * |(N : ℚ)|) ≤ 1 := by
        rw [show (1 : ℚ) / 2 ^ 37 * (2 * |(N : ℚ)|) = |(N : ℚ)| / 2 ^ 36 by ring, div_le_one (by norm_num)]
        exact hNb
      linarith
    · have ha' : |(a : ℚ)| ≤ 2 ^ 35 - 1 := by
        have : |a| ≤ 2 ^ 35 - 1 := by omega
        exact_mod_cast this
      have hNb' : (2 : ℚ) ^ 36 + 1 ≤ |(N : ℚ)| := by
        have h1 : (2 : ℤ) ^ 36 < |N| := by exact_mod_cast hNb
        have h2 : (2 : ℤ) ^ 36 + 1 ≤ |N| := h1
        exact_mod_cast h2
      have hsm : |x * 2 ^ 27| ≤ 1 / 2 - 1 / 2 ^ 37 := by
        rw [hxN, abs_div, div_le_iff₀ hNp]
        have : (1 / 2 - 1 / 2 ^ 37) * ((2 : ℚ) ^ 36 + 1) ≤ (1 / 2 - 1 / 2 ^ 37) * |(N : ℚ)| := by
          apply mul_le_mul_of_nonneg_left hNb' (by norm_num)
        refine le_trans ?_ this
        refine ha'.trans ?_
        norm_num
      have hk0 : k = 0 := by
        apply IsRne.eq
        left
        rw [Int.cast_zero, sub_zero]
        refine lt_of_le_of_lt hsm (by norm_num)
      rw [hk0, Int.cast_zero, sub_zero]; exact hsm
  obtain ⟨d1, d2⟩ := abs_le.mp hd
  obtain ⟨kb1, kb2⟩ := abs_le.mp kb
  set j1 : ℤ := k * 2 ^ 37 - (2 ^ 36 - 1) with hj1
  set j2 : ℤ := k * 2 ^ 37 + (2 ^ 36 - 1) with hj2
  have c1 : (j1 : ℚ) = k * 2 ^ 37 - (2 ^ 36 - 1) := by rw [hj1]; push_cast; ring
  have c2 : (j2 : ℚ) = k * 2 ^ 37 + (2 ^ 36 - 1) := by rw [hj2]; push_cast; ring
  have z64 : (2 : ℚ) ^ (-64 : ℤ) = 1 / 18446744073709551616 := by norm_num
  have h1 : (j1 : ℚ) * (2 : ℚ) ^ (-64 : ℤ) ≤ x := by rw [c1, z64]; linarith
  have h2 : x ≤ (j2 : ℚ) * (2 : ℚ) ^ (-64 : ℤ) := by rw [c2, z64]; linarith
  have b1 : |(j1 : ℚ)| < 2 ^ 53 := by rw [c1, abs_lt]; constructor <;> linarith
  have b2 : |(j2 : ℚ)| < 2 ^ 53 := by rw [c2, abs_lt]; constructor <;> linarith
  have e64 : (-64 : ℤ) = -((64 : ℕ) : ℤ) := rfl
  refine enc_neg_off s hl hq' (k := k) (g1 := (j1 : ℚ) * (2 : ℚ) ^ (-64 : ℤ)) (g2 := (j2 : ℚ) * (2 : ℚ) ^ (-64 : ℤ))
    (onGrid_of_multiple (g := 64) (by decide) rfl) (onGrid_of_multiple (g := 64) (by decide) rfl)
    (b64.le_rq (by decide) (rep64 j1 b1) h1) (b64.rq_le (by decide) (rep64 j2 b2) h2) ?_ ?_ ?_ ?_
  · rw [z64, abs_mul, abs_of_pos (show (0 : ℚ) < 1 / 18446744073709551616 by norm_num)]; linarith
  · rw [z64, abs_mul, abs_of_pos (show (0 : ℚ) < 1 / 18446744073709551616 by norm_num)]; linarith
  · rw [z64, c1, abs_lt]; norm_num; constructor <;> linarith
  · rw [z64, c2, abs_lt]; norm_num; constructor <;> linarith

end Takum
