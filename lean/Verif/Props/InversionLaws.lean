import Verif.Props.LogArith
import Verif.Props.BitOps

/-!
# Inversion and the operations of logarithmic takums (C98)
-/

namespace Takum
open Spec

/-- The encoder for the opposite logarithm, where it is symmetric in the sign. -/
theorem enc_inversion {w : W} (s : Bool) {l l' : Fl} {q : ℚ} (hl : l.Is q) (hl' : l'.Is (-q)) (hq : w.encF.Rep q)
    (h : ∃ t : T w, fromSAndL w s l = .ok t ∧ fromSAndL w (!s) l = .ok (-t)) :
    ∃ t : T w, fromSAndL w s l = .ok t ∧ fromSAndL w s l' = .ok (inversion w t) := by
  have h8 := w.n_pos
  obtain ⟨t, e1, e2⟩ := h
  refine ⟨t, e1, ?_⟩
  rw [fromSAndL_spec w s hl hq] at e1
  rw [fromSAndL_spec w _ hl hq] at e2
  have h1 := Except.ok.inj e1
  have h2 := Except.ok.inj e2
  have k1 := nearK_pos w.n (w.encU (sg s * q))
  have k2 := nearK_lt (n := w.n) (by omega) (w.encU (sg s * q))
  have k2' := nearK_lt (n := w.n) (by omega) (w.encU (sg (!s) * q))
  have hr : Regular t := by rw [← h1]; exact regular_mkT (by omega) _ k1 k2
  rw [fromSAndL_spec w s hl' hq.neg, inversion_regular hr, ← h1, mkT_msb (by omega) _ k2, mkT_low (by omega) _ k2]
  rw [← h1, neg_mkT (by omega) s k1 k2] at h2
  have h3 := congrArg low h2
  rw [mkT_low (by omega) _ k2', mkT_low (by omega) _ (by omega)] at h3
  have e : sg s * -q = sg (!s) * q := by cases s <;> simp [sg]
  rw [e, h3]

/-- C98: multiplication, division and square root commute with inversion, for every width. -/
theorem inversion_laws (w : W) (a b : T w) (ha : Regular a) (hb : Regular b) :
    (∃ v : T w, multiplication w a b = .ok v ∧ multiplication w (inversion w a) (inversion w b) = .ok (inversion w v)) ∧
      (∃ v : T w, division w a b = .ok v ∧ division w b a = .ok (inversion w v)) ∧
      (0 < a.toInt → ∃ v : T w, squareRoot w a = .ok v ∧ squareRoot w (inversion w a) = .ok (inversion w v)) := by
  have h8 := w.n_pos
  have mul : ∀ a b : T w, Regular a → Regular b →
      ∃ v : T w, multiplication w a b = .ok v ∧ multiplication w (inversion w a) (inversion w b) = .ok (inversion w v) := by
    intro a b ha hb
    obtain ⟨m1, m2, m3, m4⟩ := inversion_facts ha
    obtain ⟨n1, n2, n3, n4⟩ := inversion_facts hb
    obtain ⟨l, hl, e⟩ := multiplication_regular ha hb
    obtain ⟨l', hl', e'⟩ := multiplication_regular m3 n3
    rw [m4, n4, ← neg_add, Fmt.rq_neg] at hl'
    rw [e, e', m1, n1]
    exact enc_inversion _ hl hl' (lF_rep_encF (lF_rq_rep w _))
      (enc_neg_grid _ hl (lF_rep_encF (lF_rq_rep w _)) ((ell_grid a).add (ell_grid b)).rq)
  refine ⟨mul a b ha hb, ?_, fun hs => ?_⟩
  · obtain ⟨n1, n2, n3, n4⟩ := inversion_facts hb
    obtain ⟨v, e, e'⟩ := mul a (inversion w b) ha n3
    rw [(inversion_exact b hb).2.2.1] at e'
    exact ⟨v, by rw [division_eq, e], by rw [division_eq, multiplication_comm', e']⟩
  · have hs : a.msb = false := (toInt_pos_iff (by omega) ha).mp hs
    obtain ⟨m1, m2, m3, m4⟩ := inversion_facts ha
    obtain ⟨l, hl, e⟩ := squareRoot_regular ha hs
    obtain ⟨l', hl', e'⟩ := squareRoot_regular m3 (m1.trans hs)
    rw [m4, neg_div] at hl'
    rw [e, e']
    exact enc_inversion _ hl hl' (lF_rep_encF (ell_half_rep a))
      (enc_neg_grid _ hl (lF_rep_encF (ell_half_rep a)) (OnGrid.half_ell a))

example : Regular (0x4c3d#16 : T .w16) ∧ Regular (0x5123#16 : T .w16) ∧ multiplication .w16 0x4c3d#16 0x5123#16 = .ok 0x5542#16 ∧
    inversion .w16 0x4c3d#16 = 0x33c3#16 ∧ inversion .w16 0x5123#16 = 0x2edd#16 ∧
    multiplication .w16 0x33c3#16 0x2edd#16 = .ok 0x2abe#16 ∧ inversion .w16 0x5542#16 = 0x2abe#16 := by
  unfold Regular; decide +kernel

/-- Negating an index. -/
theorem int64_neg {n : BitVec 64} (hn : n.toInt ≠ -2 ^ 63) : (-n).toInt = -n.toInt := by
  have h1 := n.le_toInt
  have h2 := n.toInt_lt
  rw [BitVec.toInt_neg, Int.bmod_def]
  omega

/-- C98: the integer power of 8, 16 and 32 bits. -/
theorem inversion_power (L : Libm) (w : W) (hw : w ≠ .w64) (t : T w) (h : Regular t) (n : BitVec 64) :
    ∃ v : T w, integerPower L w t n = .ok v ∧ integerPower L w (inversion w t) n = .ok (inversion w v) ∧
      (n.toInt ≠ -2 ^ 63 → integerPower L w t (-n) = .ok (inversion w v)) := by
  have h8 := w.n_pos
  obtain ⟨m1, m2, m3, m4⟩ := inversion_facts h
  obtain ⟨l, hl, e⟩ := integerPowerL_regular h n
  obtain ⟨l', hl', e'⟩ := integerPowerL_regular m3 n
  rw [m4, neg_mul, Fmt.rq_neg] at hl'
  rw [integerPower_eq L hw, integerPower_eq L hw, integerPower_eq L hw, e, e', m1]
  have hg : OnGrid w (w.lF.rq (ell t * w.lF.rq (n.toInt : ℚ))) := by
    obtain ⟨j, hj⟩ := ell_grid t
    obtain ⟨N, hN⟩ := w.lF.rq_multiple (x := (n.toInt : ℚ)) (e := 0) (j := n.toInt) (by simp)
    rw [zpow_zero, mul_one] at hN
    refine OnGrid.rq ⟨j * N, ?_⟩
    rw [hN, mul_right_comm, hj]; push_cast; ring
  have hr := lF_rep_encF (lF_rq_rep w (ell t * w.lF.rq (n.toInt : ℚ)))
  obtain ⟨v, e1, e2⟩ := enc_inversion (t.msb && odd n.toInt) hl hl' hr (enc_neg_grid _ hl hr hg)
  refine ⟨v, e1, e2, fun hn => ?_⟩
  obtain ⟨l2, hl2, e3⟩ := integerPowerL_regular h (-n)
  have ho : odd (-n).toInt = odd n.toInt := by
    rw [int64_neg hn]
    have : ((-n.toInt).tmod 2 = 0 ↔ n.toInt.tmod 2 = 0) := by rw [Int.neg_tmod]; omega
    simp only [odd, bne, Bool.beq_eq_decide_eq, this]
  rw [int64_neg hn] at hl2
  push_cast at hl2
  rw [Fmt.rq_neg, mul_neg, Fmt.rq_neg] at hl2
  rw [e3, ho, ← e2]
  exact enc_congr _ hl2 hl' hr.neg

example (L : Libm) : Regular (0x4c3d#16 : T .w16) ∧ (3#64 : BitVec 64).toInt ≠ -2 ^ 63 ∧
    integerPower L .w16 0x4c3d#16 3#64 = integerPowerL .w16 0x4c3d#16 3#64 :=
  ⟨by unfold Regular; decide, by decide, rfl⟩

/-- The root is encoded symmetrically for 8, 16 and 32 bits. -/
theorem root_enc {w : W} (hw : w ≠ .w64) (s : Bool) {t : T w} {n : BitVec 64} (hn : n ≠ 0#64)
    {l : Fl} (hl : l.Is (w.lF.rq (ell t / w.lF.rq (n.toInt : ℚ)))) :
    ∃ v : T w, fromSAndL w s l = .ok v ∧ fromSAndL w (!s) l = .ok (-v) := by
  have hne : n.toInt ≠ 0 := fun e => hn (BitVec.eq_of_toInt_eq (by rw [e]; simp))
  have hrep := lF_rq_rep w (ell t / w.lF.rq (n.toInt : ℚ))
  cases w
  · exact enc_neg_8 _ hl hrep
  · exact enc_neg_16 _ hl hrep
  · obtain ⟨a, ha⟩ := ell_multiple t
    obtain ⟨N, hN⟩ := b64.rq_multiple (x := (n.toInt : ℚ)) (e := 0) (j := n.toInt) (by simp)
    rw [zpow_zero, mul_one] at hN
    have hN0 : N ≠ 0 := by
      intro h0
      obtain ⟨i1, i2, i3, i4⟩ := ofInt_is .w32 n
      have hN' : W.w32.lF.rq (n.toInt : ℚ) = 0 := by
        show b64.rq (n.toInt : ℚ) = 0
        rw [hN, h0]; simp
      rw [hN'] at i3 i4
      rcases lt_trichotomy n.toInt 0 with h | h | h
      · have := i4 (by omega); norm_num at this
      · omega
      · have := i3 (by omega); norm_num at this
    have e27 : (2 : ℚ) ^ (-((len W.w32.n - 5 : ℕ) : ℤ)) = 1 / 2 ^ 27 := by norm_num [len]
    have hab : |a| < 2 ^ 35 := by
      have := abs_ell_lt t
      rw [ha, abs_mul, e27, abs_of_pos (show (0 : ℚ) < 1 / 2 ^ 27 by norm_num)] at this
      have : |(a : ℚ)| < 2 ^ 35 := by linarith
      exact_mod_cast this
    apply enc_neg_32 _ hab hN0
    have e27 : (-27 : ℤ) = -((len W.w32.n - 5 : ℕ) : ℤ) := by decide
    rw [e27, ← ha, ← hN]
    exact hl
  · exact absurd rfl hw

/-- C98: the root of 8, 16 and 32 bits.  Missing: 64 bits, where it is false (`inversion_root_refuted`). -/
theorem inversion_root_partial (w : W) (hw : w ≠ .w64) (t : T w) (h : Regular t) (n : BitVec 64) (hn : n ≠ 0#64)
    (ho : t.toInt < 0 → n.toInt % 2 = 1) :
    ∃ v : T w, root w t n = .ok v ∧ root w (inversion w t) n = .ok (inversion w v) ∧
      (n.toInt ≠ -2 ^ 63 → root w t (-n) = .ok (inversion w v)) := by
  have h8 := w.n_pos
  rw [isNeg_iff] at ho
  obtain ⟨m1, m2, m3, m4⟩ := inversion_facts h
  obtain ⟨l, hl, e⟩ := root_regular h hn ho
  obtain ⟨l', hl', e'⟩ := root_regular m3 hn (by rw [m1]; exact ho)
  rw [m4, neg_div, Fmt.rq_neg] at hl'
  have hr := lF_rep_encF (lF_rq_rep w (ell t / w.lF.rq (n.toInt : ℚ)))
  obtain ⟨v, e1, e2⟩ := enc_inversion t.msb hl hl' hr (root_enc hw _ hn hl)
  rw [e, e', m1]
  refine ⟨v, e1, e2, fun hm => ?_⟩
  have hn' : -n ≠ 0#64 := by simpa using hn
  obtain ⟨l2, hl2, e3⟩ := root_regular h hn' (by rw [int64_neg hm]; intro hs; have := ho hs; omega)
  rw [int64_neg hm] at hl2
  push_cast at hl2
  rw [Fmt.rq_neg, div_neg, Fmt.rq_neg] at hl2
  rw [e3, ← e2]
  exact enc_congr _ hl2 hl' hr.neg

example : Regular (0x4c3d1234#32 : T .w32) ∧ (-3#64 : BitVec 64) ≠ 0#64 ∧ (0x4c3d1234#32 : T .w32).toInt ≥ 0 ∧
    (-3#64 : BitVec 64).toInt ≠ -2 ^ 63 := by
  unfold Regular; decide

/-- C98 is false for the root of 64 bits. -/
theorem inversion_root_refuted :
    ∃ (t v v' : T .w64) (n : BitVec 64), n.toInt = 21 ∧ root .w64 t n = .ok v ∧ root .w64 t (-n) = .ok v' ∧
      root .w64 (inversion .w64 t) n = .ok v' ∧ v' ≠ inversion .w64 v :=
  ⟨0x400000000000000b#64, 0x4000000000000000#64, 0x3fffffffffffffff#64, 21#64, by decide, by decide +kernel,
    by decide +kernel, by decide +kernel, by decide⟩

end Takum
