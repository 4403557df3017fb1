import Verif.Props.BitOps
import Verif.Props.Widths
import Verif.Lemmas.ConstIv
import Verif.Lemmas.Inversion

/-!
# C116: how the precision varies
-/

namespace Takum
open Spec

theorem precision_dr {w : W} (t : T w) : precision w t = .ok (w.n - 5 - rr (dr t)) := by
  have h8 := w.n_pos
  rw [precision_spec, r_eq (by omega)]

theorem rr_up : ∀ d < 16, ∀ e < 16, d ≤ e → 8 ≤ d → rr d ≤ rr e := by decide
theorem rr_down : ∀ d < 16, ∀ e < 16, d ≤ e → e < 8 → rr e ≤ rr d := by decide

theorem dr_mono {n : ℕ} {a b : BitVec n} (h : low a ≤ low b) : dr a ≤ dr b := Nat.div_le_div_right h

theorem dr_half {n : ℕ} (hn : 5 ≤ n) (t : BitVec n) : 8 ≤ dr t ↔ 2 ^ (n - 2) ≤ low t := by
  have : 2 ^ (n - 2) = 8 * 2 ^ (n - 5) := by rw [show (8 : ℕ) = 2 ^ 3 by norm_num, ← pow_add]; congr 1; omega
  unfold dr; rw [Nat.le_div_iff_mul_le (by positivity), this]

theorem value_zero_T {w : W} (k : Kind) : value k (0#w.n : T w) = some 0 := by
  have h8 := w.n_pos
  cases k
  · show logVal _ = _
    rw [logVal_val (by omega) (zero_ne_nar w)]; unfold val; simp
  · show (linVal _).map _ = _
    rw [linVal_val (by omega) (zero_ne_nar w)]; unfold val; simp

theorem value_sign {w : W} (k : Kind) {t : T w} (ht : Regular t) {x : ℝ} (hx : value k t = some x) : t.msb = true ↔ x < 0 := by
  have h8 := w.n_pos
  have := value_order k (value_zero_T k) hx
  rw [← not_iff_not, not_lt, ← this, ← toInt_neg_iff (by omega) ht]; simp

theorem value_unit {w : W} (k : Kind) : value k (ONE w) = some 1 ∧ value k (-ONE w) = some (-1) := by
  have h8 := w.n_pos
  obtain ⟨o1, o2, o3, o4⟩ := ONE_facts w
  obtain ⟨n1, n2, n3, n4⟩ := regular_neg (by omega) o3
  have g0 : logG 0 = 1 := by simp [logG]
  have l0 : lam 0 = 1 := by simp [lam]
  cases k
  · constructor
    · show logVal _ = _
      rw [logVal_val (by omega) o3.2]; unfold val; rw [if_neg o3.1, o1, o4, g0]; simp
    · show logVal _ = _
      rw [logVal_val (by omega) n3.2]; unfold val; rw [if_neg n3.1, n1, o1, n4, o4, g0]; simp
  · constructor
    · show (linVal _).map _ = _
      rw [linVal_val (by omega) o3.2]; unfold val; rw [if_neg o3.1, o1, o4, l0]; simp
    · show (linVal _).map _ = _
      rw [linVal_val (by omega) n3.2]; unfold val; rw [if_neg n3.1, n1, o1, n4, o4, l0]; simp

theorem low_order {w : W} {a b : T w} (h : a.msb = b.msb) : a.toInt ≤ b.toInt ↔ low a ≤ low b := by
  have h8 := w.n_pos
  rw [toInt_mkT (by omega), toInt_mkT (by omega), h]
  cases b.msb <;> simp

/-- C116: among the numbers of one sign the precision is greatest around 1 (or -1) and does not increase
away from it, in both families. -/
theorem precision_tapers (k : Kind) (w : W) (a b : T w) (x y : ℝ) (p q : ℕ) (ha : value k a = some x) (hb : value k b = some y)
    (hs : 0 < x * y) (hp : precision w a = .ok p) (hq : precision w b = .ok q) (hxy : x ≤ y) :
    (SignType.sign x ≤ x → q ≤ p) ∧ (y < SignType.sign x → p ≤ q) := by
  have h8 := w.n_pos
  have reg : ∀ {t : T w} {z : ℝ}, value k t = some z → z ≠ 0 → Regular t := fun {t z} h h0 =>
    ⟨fun e => h0 (by rw [e, value_zero_T] at h; exact (Option.some.inj h).symm),
      by rw [Ne, ← value_none (k := k), h]; simp⟩
  have ra := reg ha (left_ne_zero_of_mul hs.ne')
  have rb := reg hb (right_ne_zero_of_mul hs.ne')
  have sa := value_sign k ra ha
  have sb := value_sign k rb hb
  have hm : a.msb = b.msb := by
    rw [Bool.eq_iff_iff, sa, sb]
    constructor
    · intro h; by_contra hc; nlinarith
    · intro h; by_contra hc; nlinarith
  rw [precision_dr] at hp hq
  have hp := (Except.ok.inj hp).symm
  have hq := (Except.ok.inj hq).symm
  have hl := (low_order hm).mp ((value_order k ha hb).mpr hxy)
  have hd := dr_mono hl
  have da := dr_lt (by omega : 5 ≤ w.n) a
  have db := dr_lt (by omega : 5 ≤ w.n) b
  obtain ⟨o1, o2, o3, o4⟩ := ONE_facts w
  obtain ⟨n1, n2, n3, n4⟩ := regular_neg (by omega) o3
  obtain ⟨v1, v2⟩ := value_unit (w := w) k
  have e2 : 2 ^ (w.n - 1) = 2 * 2 ^ (w.n - 2) := by rw [← pow_succ']; congr 1; omega
  have mid : ∀ (t : T w) (z : ℝ), value k t = some z → Regular t → t.msb = a.msb →
      (((SignType.sign x : SignType) : ℝ) ≤ z ↔ 8 ≤ dr t) := fun t z hz rt ht => by
    rw [dr_half (by omega)]
    by_cases h0 : x < 0
    · rw [sign_neg h0]
      simp only [SignType.coe_neg_one]
      rw [← value_order k v2 hz, low_order (by rw [n1, o1, ht, sa.mpr h0]; rfl), n2, o2]
      omega
    · have hx0 : 0 < x := lt_of_le_of_ne (not_lt.mp h0) (left_ne_zero_of_mul hs.ne').symm
      rw [sign_pos hx0]
      simp only [SignType.coe_one]
      rw [← value_order k v1 hz, low_order (by
        rw [o1, ht]; cases e : a.msb
        · rfl
        · exact absurd (sa.mp e) h0), o2]
  constructor
  · intro h
    have := rr_up _ da _ db hd ((mid a x ha ra rfl).mp h)
    omega
  · intro h
    have h' : ¬ 8 ≤ dr b := fun c => absurd ((mid b y hb rb hm.symm).mpr c) (not_le.mpr h)
    have := rr_down _ da _ db hd (by omega)
    omega

/-- Powers of two of 16 bits: `2 ≤ 8`, and `1/8 ≤ 1/2 < 1`. -/
example : precision .w16 0x4800#16 = .ok 10 ∧ precision .w16 0x5000#16 = .ok 9 ∧ linVal (0x4800#16 : T .w16) = some 2 ∧
    linVal (0x5000#16 : T .w16) = some 8 ∧ precision .w16 0x3000#16 = .ok 10 ∧ precision .w16 0x3800#16 = .ok 11 := by
  decide +kernel

theorem dr_flip {n : ℕ} (hn : 5 ≤ n) {t t' : BitVec n} (h : low t' = 2 ^ (n - 1) - low t) (hm : t.toNat % 2 ^ (n - 5) ≠ 0) :
    dr t' = 15 - dr t := by
  have e : 2 ^ (n - 1) = 16 * 2 ^ (n - 5) := by rw [show (16 : ℕ) = 2 ^ 4 by norm_num, ← pow_add]; congr 1; omega
  have hp : 0 < 2 ^ (n - 5) := by positivity
  have hl := low_lt t
  have m : low t % 2 ^ (n - 5) = t.toNat % 2 ^ (n - 5) := by
    unfold low; exact Nat.mod_mod_of_dvd _ (by rw [e]; exact Dvd.intro_left _ rfl)
  unfold dr
  rw [h, e]
  rw [e] at hl
  rw [← m] at hm
  generalize low t = l at *
  generalize 2 ^ (n - 5) = M at *
  have d := Nat.div_add_mod l M
  have r := Nat.mod_lt l hp
  have q : l / M < 16 := (Nat.div_lt_iff_lt_mul hp).mpr hl
  generalize l / M = Q at *
  generalize l % M = R at *
  rw [Nat.div_eq_iff hp]
  obtain ⟨q', hq'⟩ : ∃ q', q' = 15 - Q := ⟨_, rfl⟩
  rw [← hq']
  have : M * (Q + q') = 15 * M := by rw [show Q + q' = 15 by omega, mul_comm]
  rw [mul_add] at this
  rw [mul_comm q' M]
  omega

theorem dr_flip0 {n : ℕ} (hn : 5 ≤ n) {t t' : BitVec n} (h : low t' = 2 ^ (n - 1) - low t) (h0 : 0 < low t)
    (hm : t.toNat % 2 ^ (n - 5) = 0) : dr t' = 16 - dr t ∧ 1 ≤ dr t := by
  have e : 2 ^ (n - 1) = 16 * 2 ^ (n - 5) := by rw [show (16 : ℕ) = 2 ^ 4 by norm_num, ← pow_add]; congr 1; omega
  have hp : 0 < 2 ^ (n - 5) := by positivity
  have m : low t % 2 ^ (n - 5) = t.toNat % 2 ^ (n - 5) := by
    unfold low; exact Nat.mod_mod_of_dvd _ (by rw [e]; exact Dvd.intro_left _ rfl)
  unfold dr
  rw [h, e]
  rw [← m] at hm
  obtain ⟨q, hq⟩ := Nat.dvd_of_mod_eq_zero hm
  rw [hq] at h0 ⊢
  rw [mul_comm 16, ← Nat.mul_sub, Nat.mul_div_cancel_left _ hp, Nat.mul_div_cancel_left _ hp]
  exact ⟨rfl, Nat.pos_of_ne_zero fun z => by rw [z] at h0; simp at h0⟩

theorem rr_flip0 : ∀ d < 16, 1 ≤ d → rr (16 - d) ≤ rr d + 1 ∧ rr d ≤ rr (16 - d) + 1 := by decide

theorem precision_flip {w : W} {t t' : T w} (h0 : 0 < low t) (h : low t' = 2 ^ (w.n - 1) - low t) {p p' : ℕ}
    (hp : precision w t = .ok p) (hp' : precision w t' = .ok p') :
    (t.toNat % 2 ^ (w.n - 5) ≠ 0 → p' = p) ∧ p' ≤ p + 1 ∧ p ≤ p' + 1 := by
  have h8 := w.n_pos
  rw [precision_dr] at hp hp'
  have hp := (Except.ok.inj hp).symm
  have hp' := (Except.ok.inj hp').symm
  have d := dr_lt (by omega : 5 ≤ w.n) t
  by_cases hm : t.toNat % 2 ^ (w.n - 5) = 0
  · obtain ⟨e, e1⟩ := dr_flip0 (by omega) h h0 hm
    have := rr_flip0 _ d e1
    rw [e] at hp'
    exact ⟨fun c => absurd hm c, by omega, by omega⟩
  · have e := dr_flip (by omega) h hm
    rw [e, rr_symm _ d] at hp'
    exact ⟨fun _ => by omega, by omega, by omega⟩

/-- C116: a number, its negative and its inverse differ in precision by at most one bit, and not at all unless the number starts a
range of constant precision, that is all bits after the first five are zero. -/
theorem precision_symmetric (w : W) (t : T w) (ht : Regular t) (p q r : ℕ) (hp : precision w t = .ok p)
    (hq : precision w (-t) = .ok q) (hr : precision w (inversion w t) = .ok r) :
    (t.toNat % 2 ^ (w.n - 5) ≠ 0 → q = p ∧ r = p) ∧ q ≤ p + 1 ∧ p ≤ q + 1 ∧ r ≤ p + 1 ∧ p ≤ r + 1 := by
  have h8 := w.n_pos
  have h0 := low_pos (by omega) ht
  obtain ⟨a1, a2, a3⟩ := precision_flip h0 (regular_neg (by omega) ht).2.1 hp hq
  obtain ⟨b1, b2, b3⟩ := precision_flip h0 (inversion_facts ht).2.1 hp hr
  exact ⟨fun h => ⟨a1 h, b1 h⟩, a2, a3, b2, b3⟩

example : Regular (0x4c3d#16 : T .w16) ∧ precision .w16 0x4c3d#16 = .ok 10 ∧ precision .w16 (-0x4c3d#16) = .ok 10 ∧
    precision .w16 (inversion .w16 0x4c3d#16) = .ok 10 ∧ (0x4c3d#16).toNat % 2 ^ 11 ≠ 0 := by
  unfold Regular; decide +kernel

/-- The precision is not the same for a number and its negative throughout: that of the linear takum 2 is 10 and that of -2 is 11. -/
theorem precision_neg_refuted : linVal (0x4800#16 : T .w16) = some 2 ∧ precision .w16 0x4800#16 = .ok 10 ∧
    linVal (-0x4800#16 : T .w16) = some (-2) ∧ precision .w16 (-0x4800#16) = .ok 11 := by decide +kernel

/-- C116: widening adds to the precision the bits it adds, except to an 8-bit takum without mantissa bits, of which it completes the
exponent first. -/
theorem precision_widen {v u : W} (h : v.n < u.n) (t : T v) (p : ℕ) (hp : precision v t = .ok p) (h1 : v ≠ .w8 ∨ 1 ≤ p) :
    ∃ t' : T u, expand v u t = .ok t' ∧ precision u t' = .ok (p + (u.n - v.n)) := by
  have h8 := v.n_pos
  obtain ⟨t', e, hm, hl⟩ := expand_spec h t
  refine ⟨t', e, ?_⟩
  have hd : dr t' = dr t := by
    unfold dr
    rw [hl, show u.n - 5 = v.n - 5 + (u.n - v.n) by omega, pow_add, Nat.mul_div_mul_right _ _ (by positivity)]
  rw [precision_dr] at hp ⊢
  have hp := Except.ok.inj hp
  have d := rr_le _ (dr_lt (by omega : 5 ≤ v.n) t)
  rw [hd]; congr 1
  rcases h1 with h1 | h1
  · have : 16 ≤ v.n := by cases v <;> simp_all [W.n]
    omega
  · omega

example : precision .w8 0x4b#8 = .ok 2 ∧ expand .w8 .w32 0x4b#8 = .ok 0x4b000000#32 ∧ precision .w32 0x4b000000#32 = .ok 26 ∧
    precision .w8 0x7f#8 = .ok 0 ∧ expand .w8 .w16 0x7f#8 = .ok 0x7f00#16 ∧ precision .w16 0x7f00#16 = .ok 4 := by decide +kernel

end Takum
