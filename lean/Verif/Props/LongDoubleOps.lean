import Verif.Lemmas.LongDoubleOps
import Verif.Props.LongDouble
import Verif.Props.LogArith

/-!
# C96: the logarithmic functions on platforms with another `long double`

A property that everyone would expect, `t · 1 = t`, for the formats of `long double` that the code supports.
-/

namespace Takum
open Spec

theorem ldToL_d64 (w : W) (t : T w) : ldToL .d64 w t = toL w t := by cases w <;> rfl
theorem ldF_d64 (w : W) : ldF .d64 w = w.lF := by cases w <;> rfl

theorem ldFrac_d64 : ldFractionToRoundedBits .d64 = extendedFractionToRoundedBits := rfl
theorem ldFromSAndL_d64 (w : W) (s : Bool) (l : Fl) : ldFromSAndL .d64 w s l = fromSAndL w s l := by cases w <;> rfl

/-- With the 80-bit format this is the model of `Model/Arith.lean`. -/
theorem ldMultiplication_d64 (w : W) (a b : T w) : ldMultiplication .d64 w a b = multiplication w a b := by
  unfold ldMultiplication multiplication
  simp only [ldToL_d64, ldF_d64, ldFromSAndL_d64]

theorem ldMultiplication_16 (v : LD) (a b : T .w16) : ldMultiplication v .w16 a b = multiplication .w16 a b := rfl

/-- The stub: with 53 bits the decoder for 64 bits is constant. -/
theorem ldToL_stub (t : T .w64) : ldToL .d53 .w64 t = .ok .nan := rfl

/-- What multiplication by one encodes. -/
theorem ldMul_one {v : LD} {w : W} (hs : ¬(v = .d53 ∧ w = .w64)) {t : T w} (ht : Regular t) :
    ∃ l : Fl, l.Is (ell t) ∧ ldMultiplication v w t (ONE w) = ldFromSAndL v w t.msb l := by
  obtain ⟨o1, o2, o3, o4⟩ := ONE_facts w
  have dec : ∀ u : T w, Regular u → (ldF v w).In (ell u) ∧ ∃ x, ldToL v w u = .ok x ∧ x.Is (ell u) := by
    intro u hu
    cases w
    · exact ⟨ell_in .w8 u, toL_regular .w8 u hu⟩
    · exact ⟨ell_in .w16 u, toL_regular .w16 u hu⟩
    · exact ⟨ell_in .w32 u, toL_regular .w32 u hu⟩
    · cases v
      · exact absurd ⟨rfl, rfl⟩ hs
      · exact ⟨ell_in .w64 u, toL64_regular (F := x80) (by decide) (by decide) (by decide) (by decide) u hu⟩
      · exact ⟨ell_in_gen (F := b128) (by decide) (by decide) (by decide) u,
          toL64_regular (F := b128) (by decide) (by decide) (by decide) (by decide) u hu⟩
  obtain ⟨i, x, ex, ix⟩ := dec t ht
  obtain ⟨-, y, ey, iy⟩ := dec (ONE w) o3
  rw [o4] at iy
  refine ⟨Fl.add (ldF v w) x y, ?_, ?_⟩
  · apply Is.round_in i
    intro hb
    have := ix.add iy (F := ldF v w)
    rw [add_zero] at this
    exact this hb
  · unfold ldMultiplication
    rw [ex, ok_bind, ey, ok_bind, sign_ne ht o3, o1, Bool.xor_false]

theorem sg_ell {n : ℕ} (hn : 5 ≤ n) (t : BitVec n) : sg t.msb * ell t = c t + m t := by
  rw [ell_sg hn, sg_sq, cpm_eq hn]

theorem floor_fract_ell {n : ℕ} (hn : 5 ≤ n) (t : BitVec n) : ⌊sg t.msb * ell t⌋ = c t ∧ Int.fract (sg t.msb * ell t) = m t := by
  obtain ⟨m0, m1⟩ := m_range t
  have h : ⌊sg t.msb * ell t⌋ = c t := by
    rw [sg_ell hn, Int.floor_eq_iff]; constructor <;> linarith
  refine ⟨h, ?_⟩
  unfold Int.fract
  rw [h, sg_ell hn]; ring

/-- The encoder applied to the position of a takum. -/
theorem ld_encode_ell {v : LD} (hv : v ≠ .d64) {w : W} (hw : w = .w32 ∨ w = .w64) {t : T w} (ht : Regular t) {l : Fl}
    (hl : l.Is (ell t)) (h254 : |ell t| ≤ 254) (hg : ∃ j : ℤ, ell t * 2 ^ 44 = j) :
    (1 / 2 ≤ m t → ldFromSAndL v w t.msb l = .error .shift) ∧
    (m t < 1 / 2 → ∃ u, ldFromSAndL v w t.msb l = .ok u ∧ Regular u ∧ u.msb = t.msb ∧ ell u = sg t.msb * (c t + 2 * m t)) := by
  obtain ⟨j, hj⟩ := hg
  have h12 : 12 ≤ w.n := by rcases hw with rfl | rfl <;> decide
  obtain ⟨e1, e2⟩ := floor_fract_ell (by omega) t
  have key : (1 / 2 ≤ m t → ldFromSAndL v w t.msb l = .error .shift) ∧
    (m t < 1 / 2 → ∃ u, ldFromSAndL v w t.msb l = .ok u ∧ NearestEll t.msb (sg t.msb * (c t + 2 * m t)) u) := by
    rcases hw with rfl | rfl
    · have := ld_spec hv false t.msb hl h254 hj
      rw [e1, e2] at this
      exact this
    · have := ld_spec hv true t.msb hl h254 hj
      rw [e1, e2] at this
      exact this
  refine ⟨key.1, fun h => ?_⟩
  obtain ⟨u, eu, nu⟩ := key.2 h
  obtain ⟨d, rd, sd, ed⟩ := exists_double h12 ht h
  exact ⟨u, eu, nu.1, nu.2.1, nearestEll_exact nu rd sd ed⟩

theorem grid_of_m {n : ℕ} {t : BitVec n} (h : m t = 0) : ∃ j : ℤ, ell t * 2 ^ 44 = j := by
  refine ⟨(-1) ^ S t * c t * 2 ^ 44, ?_⟩
  unfold ell
  rw [h]; push_cast; ring

/-- C96 where it holds: with the 80-bit format; for 16 bits, where the code computes in `double`; and, unless the 64-bit
decoder is a stub, for the takums `±√e^i` with an integer `i` and for 0 and NaR.  Missing: all others, see
`long_double_one_refuted`. -/
theorem long_double_one_partial (v : LD) (w : W) (t : T w) :
    (v = .d64 ∨ w = .w16 → ldMultiplication v w t (ONE w) = .ok t) ∧
    (¬(v = .d53 ∧ w = .w64) → t = 0#w.n ∨ t = nar w.n ∨ (Regular t ∧ m t = 0 ∧ |ell t| ≤ 254) → w ≠ .w8 →
      ldMultiplication v w t (ONE w) = .ok t) := by
  have first : v = .d64 ∨ w = .w16 → ldMultiplication v w t (ONE w) = .ok t := by
    rintro (rfl | rfl)
    · rw [ldMultiplication_d64, multiplication_one]
    · rw [ldMultiplication_16, multiplication_one]
  refine ⟨first, fun hs h h8 => ?_⟩
  by_cases hv : v = .d64 ∨ w = .w16
  · exact first hv
  push Not at hv
  rcases h with rfl | rfl | ⟨h0, hm, hl⟩
  · cases w
    · exact absurd rfl h8
    · exact absurd rfl hv.2
    · cases v
      · decide +kernel
      · exact absurd rfl hv.1
      · decide +kernel
    · cases v
      · exact absurd ⟨rfl, rfl⟩ hs
      · exact absurd rfl hv.1
      · decide +kernel
  · cases w
    · exact absurd rfl h8
    · exact absurd rfl hv.2
    · cases v
      · decide +kernel
      · exact absurd rfl hv.1
      · decide +kernel
    · cases v
      · exact absurd ⟨rfl, rfl⟩ hs
      · exact absurd rfl hv.1
      · decide +kernel
  · have hw : w = .w32 ∨ w = .w64 := by
      cases w
      · exact absurd rfl h8
      · exact absurd rfl hv.2
      · exact Or.inl rfl
      · exact Or.inr rfl
    obtain ⟨l, il, el⟩ := ldMul_one hs h0
    obtain ⟨-, h2⟩ := ld_encode_ell hv.1 hw h0 il hl (grid_of_m hm)
    obtain ⟨u, eu, ru, su, lu⟩ := h2 (by rw [hm]; norm_num)
    rw [el, eu]
    congr 1
    apply ell_inj (by have := w.n_pos; omega) su
    rw [lu, hm, mul_zero, add_zero, ← sg_sq t.msb (ell t), sg_ell (by have := w.n_pos; omega), hm, add_zero]

example : Regular (0xd8000000#32 : T .w32) ∧ m (0xd8000000#32 : T .w32) = 0 ∧ ell (0xd8000000#32 : T .w32) = -7 ∧
    ldMultiplication .d113 .w32 0xd8000000#32 (ONE .w32) = .ok 0xd8000000#32 := by
  unfold Regular; decide +kernel

/-- C96 is false for the other two formats.  With 53 bits the 64-bit functions that decode give NaR for all arguments.
Apart from that, let `t` be a takum of 8, 32 or 64 bits (up to `√e^254`, with up to 44 bits after the binary point) with the
mantissa `m`: if `m ≥ 1/2`, the product of `t` and 1 is undefined, as the encoder shifts by a negative number of bits.  If
`0 < m < 1/2`, the product is another takum, the one with the mantissa `2 m` (32 and 64 bits). -/
theorem long_double_one_refuted (v : LD) (hv : v = .d53 ∨ v = .d113) :
    (∀ a b : T .w64, ldMultiplication .d53 .w64 a b = .ok (nar 64) ∧ ldDivision .d53 .w64 a b = .ok (nar 64) ∧
      ldSquareRoot .d53 .w64 a = .ok (nar 64) ∧ ∀ n, ldRoot .d53 .w64 a n = .ok (nar 64)) ∧
    (∀ (w : W) (t : T w), w ≠ .w16 → ¬(v = .d53 ∧ w = .w64) → Regular t → |ell t| ≤ 254 → (∃ j : ℤ, ell t * 2 ^ 44 = j) →
      (1 / 2 ≤ m t → ldMultiplication v w t (ONE w) = .error .shift) ∧
      (w ≠ .w8 → 0 < m t → m t < 1 / 2 → ∃ u, ldMultiplication v w t (ONE w) = .ok u ∧ u ≠ t ∧ Regular u ∧ u.msb = t.msb ∧
        ell u = (-1) ^ S t * (c t + 2 * m t))) := by
  refine ⟨fun a b => ⟨rfl, rfl, ?_, fun n => ?_⟩, fun w t h16 hs ht h254 hg => ?_⟩
  · unfold ldSquareRoot; split <;> rfl
  · unfold ldRoot; split <;> rfl
  have h8 := w.n_pos
  have hv' : v ≠ .d64 := by rcases hv with rfl | rfl <;> decide
  obtain ⟨l, il, el⟩ := ldMul_one hs ht
  constructor
  · intro h
    rw [el]
    by_cases hw : w = .w8
    · subst hw
      obtain ⟨j, hj⟩ := hg
      have := (ld_spec hv' false t.msb il h254 hj).1
      rw [(floor_fract_ell (by decide) t).2] at this
      have e : ldTakum32FromSAndL v t.msb l = .error .shift := this h
      show (do reduce .w32 .w8 (← ldTakum32FromSAndL v t.msb l)) = _
      rw [e]; rfl
    · exact (ld_encode_ell hv' (by cases w <;> simp_all) ht il h254 hg).1 h
  · intro hw m0 h
    obtain ⟨u, eu, ru, su, lu⟩ := (ld_encode_ell hv' (by cases w <;> simp_all) ht il h254 hg).2 h
    refine ⟨u, el.trans eu, ?_, ru, su, ?_⟩
    · rintro rfl
      have := sg_ell (by omega : 5 ≤ w.n) u
      rw [lu, sg_sq] at this
      linarith
    · rw [lu, neg_one_pow_S (by omega)]; rfl

example : Regular (0x46000000#32 : T .w32) ∧ |ell (0x46000000#32 : T .w32)| ≤ 254 ∧ ell (0x46000000#32 : T .w32) * 2 ^ 44 = (3 * 2 ^ 42 : ℤ) ∧
    1 / 2 ≤ m (0x46000000#32 : T .w32) ∧ ldMultiplication .d113 .w32 0x46000000#32 (ONE .w32) = .error .shift ∧
    0 < m (0x42000000#32 : T .w32) ∧ m (0x42000000#32 : T .w32) < 1 / 2 ∧
    ldMultiplication .d53 .w32 0x42000000#32 (ONE .w32) = .ok 0x44000000#32 := by
  unfold Regular; decide +kernel

end Takum
