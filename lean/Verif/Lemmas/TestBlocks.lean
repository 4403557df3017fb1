import Verif.Lemmas.TestRandom
import Verif.Model.TestBlocks
import Verif.Props.Encoder
import Verif.Props.LinFloat
import Verif.Props.LogRound
import Verif.Props.BitOps
import Verif.Props.NaR
import Verif.Lemmas.SymmetryCall

/-!
# Test programs all of whose cases are passed
-/

namespace Takum.Test
open Takum Spec

theorem status_zero {D : Type} {r : R Report} {N : ℕ} {Def Pass : D → Prop} (h : Reports r N Def Pass)
    (hd : ∀ d, Def d) (hp : ∀ d, Pass d) : ∃ p t, r = .ok ⟨0, p, t⟩ := by
  obtain ⟨s, e, -, hs⟩ := h.1 hd
  rw [hs.mpr hp] at e
  exact ⟨_, _, e⟩

theorem type_pass {E : Env} {blk : Block} (hb : blk.OneD) (k : Kind) (w : W)
    (h : ∀ t : T w, checkCase E blk t.toInt (parNar w) k w = .ok false) :
    ∃ p t, runType E blk k w (2 ^ 22) = .ok ⟨0, p, t⟩ := by
  by_cases hm : 2 ^ w.n ≤ 2 ^ 22
  · have hw : w ≠ .w64 := by rintro rfl; revert hm; decide
    exact status_zero (full_report hb hw hm (fun _ => True) (fun _ => True)
      (fun t => by simp [h t]) (fun t => by simp [h t])) (fun _ => trivial) (fun _ => trivial)
  · have hc : 2 ^ 22 < parCount w := by
      cases w <;> first | (exfalso; revert hm; decide) | decide
    exact status_zero (random_report hb (by norm_num) (by norm_num) hc (fun _ => True) (fun _ => True)
      (fun t => by simp [h t]) (fun t => by simp [h t])) (fun _ => trivial) (fun _ => trivial)

theorem block_pass {E : Env} {blk : Block} (hb : blk.OneD)
    (h : ∀ k w (t : T w), checkCase E blk t.toInt (parNar w) k w = .ok false) :
    runBlock E blk = .ok 0 := by
  have g := fun k w => type_pass hb k w (h k w)
  unfold runBlock
  obtain ⟨_, _, e1⟩ := g .log .w8
  obtain ⟨_, _, e2⟩ := g .log .w16
  obtain ⟨_, _, e3⟩ := g .log .w32
  obtain ⟨_, _, e4⟩ := g .log .w64
  obtain ⟨_, _, e5⟩ := g .lin .w8
  obtain ⟨_, _, e6⟩ := g .lin .w16
  obtain ⟨_, _, e7⟩ := g .lin .w32
  obtain ⟨_, _, e8⟩ := g .lin .w64
  simp only [e1, e2, e3, e4, e5, e6, e7, e8, R_ok_bind]
  rfl

theorem trip_pass {E : Env} {f : Kind → (w : W) → Option (T w → C (T w))}
    (h : ∀ k w g, f k w = some g → ∀ t, g t = .ok t) : runBlock E (.roundtrip f) = .ok 0 := by
  refine block_pass (blk := .roundtrip f) trivial fun k w t => ?_
  rcases hf : f k w with _ | g
  · exact case_none hf _ _
  · exact (case_trip hf t _).2.mp (h k w g hf t)

/-! ## Object representation of a `double` -/

theorem ofBits64_normal {b : BitVec 64} (h0 : b.toNat / 2 ^ 52 % 2 ^ 11 ≠ 0)
    (h1 : b.toNat / 2 ^ 52 % 2 ^ 11 ≠ 2047) :
    (ofBits64 b).In b64 ∧ (ofBits64 b).bits64 = b := by
  obtain ⟨N, hN⟩ : ∃ N, N = b.toNat := ⟨_, rfl⟩
  have hlt := b.isLt
  have hmsb : b.msb = decide (2 ^ 63 ≤ N) := by rw [BitVec.msb_eq_decide, hN]
  rw [← hN] at h0 h1 hlt
  obtain ⟨e, he⟩ : ∃ e, e = N / 2 ^ 52 % 2 ^ 11 := ⟨_, rfl⟩
  obtain ⟨m, hm⟩ : ∃ m, m = N % 2 ^ 52 := ⟨_, rfl⟩
  have hval : ofBits64 b = .num ((if decide (2 ^ 63 ≤ N) then -1 else 1) * ((2 ^ 52 + m : ℕ) : ℚ) *
      (2 : ℚ) ^ ((e : ℤ) - 1075)) := by
    unfold ofBits64
    simp only [← hN, hmsb]
    rw [if_neg h1, if_neg h0, he, hm]
  rw [← he] at h0 h1
  have hm52 : m < 2 ^ 52 := by omega
  have he11 : e < 2047 := by omega
  obtain ⟨sg, hsg⟩ : ∃ sg : ℚ, sg = if decide (2 ^ 63 ≤ N) then -1 else 1 := ⟨_, rfl⟩
  have hs2 : sg = 1 ∨ sg = -1 := by rw [hsg]; split_ifs <;> simp
  have habs : |sg| = 1 := by rcases hs2 with h | h <;> rw [h] <;> norm_num
  rw [← hsg] at hval
  obtain ⟨q, hq⟩ : ∃ q : ℚ, q = sg * ((2 ^ 52 + m : ℕ) : ℚ) * (2 : ℚ) ^ ((e : ℤ) - 1075) := ⟨_, rfl⟩
  rw [← hq] at hval
  have hzp : (0 : ℚ) < (2 : ℚ) ^ ((e : ℤ) - 1075) := zpow_pos (by norm_num) _
  have haq : |q| = ((2 ^ 52 + m : ℕ) : ℚ) * (2 : ℚ) ^ ((e : ℤ) - 1075) := by
    rw [hq, abs_mul, abs_mul, habs, abs_of_pos hzp, one_mul, abs_of_nonneg (by positivity)]
  have hMpos : (0 : ℚ) < ((2 ^ 52 + m : ℕ) : ℚ) := by positivity
  have hpos : 0 < |q| := by rw [haq]; exact mul_pos hMpos hzp
  have hq0 : q ≠ 0 := abs_pos.mp hpos
  have hM1 : ((2 ^ 52 : ℕ) : ℚ) ≤ ((2 ^ 52 + m : ℕ) : ℚ) := by exact_mod_cast Nat.le_add_right _ _
  have hM2 : ((2 ^ 52 + m : ℕ) : ℚ) < ((2 ^ 53 : ℕ) : ℚ) := by
    have : 2 ^ 52 + m < 2 ^ 53 := by omega
    exact_mod_cast this
  have hz1 : (2 : ℚ) ^ ((e : ℤ) - 1023) = ((2 ^ 52 : ℕ) : ℚ) * (2 : ℚ) ^ ((e : ℤ) - 1075) := by
    rw [show ((2 ^ 52 : ℕ) : ℚ) = (2 : ℚ) ^ (52 : ℤ) by norm_num, ← zpow_add₀ (by norm_num)]
    congr 1; ring
  have hz2 : (2 : ℚ) ^ ((e : ℤ) - 1023 + 1) = ((2 ^ 53 : ℕ) : ℚ) * (2 : ℚ) ^ ((e : ℤ) - 1075) := by
    rw [show ((2 ^ 53 : ℕ) : ℚ) = (2 : ℚ) ^ (53 : ℤ) by norm_num, ← zpow_add₀ (by norm_num)]
    congr 1; ring
  have hb1 : (2 : ℚ) ^ ((e : ℤ) - 1023) ≤ |q| := by
    rw [hz1, haq]; exact mul_le_mul_of_nonneg_right hM1 hzp.le
  have hb2 : |q| < (2 : ℚ) ^ ((e : ℤ) - 1023 + 1) := by
    rw [hz2, haq]; exact mul_lt_mul_of_pos_right hM2 hzp
  have hlog : Int.log 2 |q| = (e : ℤ) - 1023 := by
    have l1 : (e : ℤ) - 1023 ≤ Int.log 2 |q| := (Int.zpow_le_iff_le_log (b := 2) (by norm_num) hpos).mp
      (by exact_mod_cast hb1)
    have l2 : Int.log 2 |q| < (e : ℤ) - 1023 + 1 := (Int.lt_zpow_iff_log_lt (b := 2) (by norm_num) hpos).mp
      (by exact_mod_cast hb2)
    omega
  refine ⟨?_, ?_⟩
  · rw [hval]
    refine ⟨hq0, ⟨(if decide (2 ^ 63 ≤ N) then -1 else 1) * ((2 ^ 52 + m : ℕ) : ℤ), (e : ℤ) - 1075, ?_, ?_, ?_⟩, ?_⟩
    · rw [hq, hsg]; push_cast; rfl
    · rw [abs_mul, show |((if decide (2 ^ 63 ≤ N) then -1 else 1 : ℤ))| = 1 by split_ifs <;> norm_num, one_mul,
        abs_of_nonneg (by positivity)]
      show (((2 ^ 52 + m : ℕ) : ℤ)) < 2 ^ 53
      have : 2 ^ 52 + m < 2 ^ 53 := by omega
      exact_mod_cast this
    · show (b64.emin : ℤ) ≤ _
      have : (b64.emin : ℤ) = -1074 := by decide
      rw [this]; omega
    · refine lt_of_lt_of_le hb2 (zpow_le_zpow_right₀ (by norm_num) ?_)
      have : (b64.emax : ℤ) = 1024 := by decide
      rw [this]; omega
  · rw [hval]
    have hsgn : (Fl.num q).sgn = decide (2 ^ 63 ≤ N) := by
      show decide (q < 0) = _
      rw [decide_eq_decide]
      constructor
      · intro h
        by_contra hc
        rw [decide_eq_false hc] at hsg
        simp only [Bool.false_eq_true, if_false] at hsg
        rw [hq, hsg, one_mul] at h
        exact absurd h (not_lt.mpr (mul_pos hMpos hzp).le)
      · intro h
        rw [decide_eq_true h] at hsg
        simp only [if_true] at hsg
        rw [hq, hsg]
        have := mul_pos hMpos hzp
        linarith
    unfold Fl.bits64
    simp only [hsgn, hlog]
    rw [if_pos (by omega)]
    have hfl : (|q| / (2 : ℚ) ^ ((e : ℤ) - 1023 - 52)).floor = ((2 ^ 52 + m : ℕ) : ℤ) := by
      rw [show (e : ℤ) - 1023 - 52 = (e : ℤ) - 1075 by ring, haq, mul_div_assoc, div_self hzp.ne', mul_one]
      exact Int.floor_natCast (R := ℚ) _
    rw [hfl, Int.toNat_natCast]
    apply BitVec.eq_of_toNat_eq
    rw [BitVec.toNat_ofNat, ← hN, show ((e : ℤ) - 1023 + 1023).toNat = e by omega]
    by_cases hs : 2 ^ 63 ≤ N
    · rw [decide_eq_true hs, if_pos rfl]; omega
    · rw [decide_eq_false hs]; simp only [Bool.false_eq_true, if_false]; omega

theorem ofBits64_cases (b : BitVec 64) :
    (ofBits64 b).isfinite = false ∨ |(ofBits64 b).toQ| ≤ (2 : ℚ) ^ (-255 : ℤ) ∨
      (ofBits64 b).In b64 ∧ (ofBits64 b).bits64 = b := by
  by_cases h1 : b.toNat / 2 ^ 52 % 2 ^ 11 = 2047
  · left
    unfold ofBits64
    simp only [if_pos h1]
    split_ifs <;> rfl
  · by_cases h0 : b.toNat / 2 ^ 52 % 2 ^ 11 = 0
    · right; left
      have hm : b.toNat % 2 ^ 52 < 2 ^ 52 := Nat.mod_lt _ (by norm_num)
      unfold ofBits64
      simp only [if_neg h1, if_pos h0]
      generalize b.toNat % 2 ^ 52 = m at hm
      have hmk : ∀ z q, (Fl.mk z q).toQ = q := by
        intro z q; unfold Fl.mk; split_ifs with h
        · rw [h]; rfl
        · rfl
      rw [hmk, abs_mul, abs_mul, show |(if b.msb then (-1 : ℚ) else 1)| = 1 by split_ifs <;> norm_num, one_mul,
        abs_of_nonneg (show (0 : ℚ) ≤ m by positivity), abs_of_pos (zpow_pos (by norm_num) _)]
      have hm' : (m : ℚ) ≤ (2 : ℚ) ^ (52 : ℤ) := by
        have : m ≤ 2 ^ 52 := hm.le
        have h : (m : ℚ) ≤ ((2 ^ 52 : ℕ) : ℚ) := by exact_mod_cast this
        rwa [show ((2 ^ 52 : ℕ) : ℚ) = (2 : ℚ) ^ (52 : ℤ) by norm_num] at h
      calc (m : ℚ) * (2 : ℚ) ^ (-1074 : ℤ) ≤ (2 : ℚ) ^ (52 : ℤ) * (2 : ℚ) ^ (-1074 : ℤ) :=
            mul_le_mul_of_nonneg_right hm' (zpow_pos (by norm_num) _).le
        _ = (2 : ℚ) ^ (-1022 : ℤ) := by rw [← zpow_add₀ (by norm_num)]; norm_num
        _ ≤ _ := zpow_le_zpow_right₀ (by norm_num) (by norm_num)
    · exact .inr (.inr (ofBits64_normal h0 h1))

/-! ## The conversions of the harness -/

theorem trip_ext {L : Libm} (hP : L.Powers) (hA : L.Accurate) {k : Kind} {w : W} {t : T w} {f : Fl}
    (h : toExt L k w t = .ok f) : fromExt L k w f = .ok t := by
  cases k
  · obtain ⟨g, e1, e2⟩ := log_round_trip L hP hA .ext w (.inl rfl) t
    have h' : logTo L .ext w t = .ok f := h
    rw [h'] at e1; cases e1; exact e2
  · have := (lin_roundtrip w t).1
    have h' : linToExtended w t = .ok f := h
    rw [h', ok_bind] at this; exact this

theorem toExt_nar {L : Libm} (hP : L.Powers) (k : Kind) (w : W) : toExt L k w (nar w.n) = .ok .nan := by
  cases k
  · exact logTo_nar hP.nan .ext w
  · exact linToExtended_nar w

theorem toExt_zero {L : Libm} (hP : L.Powers) (k : Kind) (w : W) :
    toExt L k w 0#w.n = .ok (.zero false) := by
  cases k
  · exact logTo_zero hP .ext w
  · exact linToExtended_zero w

theorem fromExt_nonfinite (L : Libm) (k : Kind) (w : W) {f : Fl} (h : f.isfinite = false) :
    fromExt L k w f = .ok (nar w.n) := by
  cases k
  · exact logFrom_nonfinite L .ext w h
  · cases f with
    | nan => exact linFrom_nan .ext w
    | inf s => exact linFrom_inf .ext w s
    | _ => cases h

theorem fromExt_zero (L : Libm) (k : Kind) (w : W) (s : Bool) : fromExt L k w (.zero s) = .ok 0#w.n := by
  cases k
  · exact logFrom_zero L .ext w s
  · exact linFrom_zero .ext w s

theorem toInt_neg_iff {n : ℕ} (t : BitVec n) : t.toInt < 0 ↔ t.msb = true := by
  have := BitVec.slt_zero_eq_msb (x := t)
  rw [BitVec.slt_eq_decide] at this
  simp at this
  rw [← this]; simp

theorem toExt_neg {L : Libm} (hP : L.Powers) (hS : L.Specials) (k : Kind) (w : W) {t : T w}
    (ht : Regular t) :
    ∃ v : ℚ, v ≠ 0 ∧ toExt L k w t = .ok (.num v) ∧ toExt L k w (-t) = .ok (.num (-v)) ∧
      (v < 0 ↔ t.msb = true) := by
  have h5 : 5 ≤ w.n := by have := w.n_pos; omega
  obtain ⟨-, -, rn, -⟩ := regular_neg h5 ht
  cases k
  · obtain ⟨f, e, i, hi, -⟩ := logTo_xv hP (A := .ext) (by decide) ht.2
    obtain ⟨f', e', i', -⟩ := logTo_xv hP (A := .ext) (by decide) rn.2
    rw [xv_neg hP hS (by decide) ht.2] at i'
    obtain ⟨g, v, e2, i2, -, z2, s2, -⟩ := logTo_ext hP w ht.2
    have hg : f = g := by rw [e] at e2; injection e2
    subst hg
    have hv := i.unique i2
    have h0 : xv L .ext w t ≠ 0 := by rw [hv]; exact fun h => ht.1 (z2.mp h)
    refine ⟨_, h0, ?_, ?_, ?_⟩
    · show logTo L .ext w t = _; rw [e, i.eq_num h0]
    · show logTo L .ext w (-t) = _; rw [e', i'.eq_num (neg_ne_zero.mpr h0)]
    · rw [hv, s2, toInt_neg_iff]
  · obtain ⟨f, e, i⟩ := linToExtended_regular ht
    obtain ⟨f', e', i'⟩ := linToExtended_regular rn
    have h0 := lv_ne t
    have hn : lv (-t) = -lv t := by rw [← qv_regular rn, ← qv_regular ht]; exact qv_neg ht.2
    rw [hn] at i'
    refine ⟨_, h0, ?_, ?_, lv_neg_iff t⟩
    · show linToExtended w t = _; rw [e, i.eq_num h0]
    · show linToExtended w (-t) = _; rw [e', i'.eq_num (neg_ne_zero.mpr h0)]

theorem toExt_one {L : Libm} (hS : L.Specials) (k : Kind) (w : W) : toExt L k w (ONE w) = .ok (.num 1) := by
  cases k
  · exact logTo_one hS w
  · obtain ⟨o, ho, io⟩ := linToExtended_regular (ONE_facts w).2.2.1
    rw [← qv_regular (ONE_facts w).2.2.1, qv_one] at io
    rw [io.eq_num one_ne_zero] at ho
    exact ho

theorem takum_cases {w : W} (t : T w) : t = 0#w.n ∨ t = nar w.n ∨ Regular t := by
  by_cases h0 : t = 0#w.n
  · exact .inl h0
  · by_cases h1 : t = nar w.n
    · exact .inr (.inl h1)
    · exact .inr (.inr ⟨h0, h1⟩)

/-- A case whose result is the expected one exactly is passed. -/
theorem unary_exact {E : Env} {ref : Fl → Fl} {f : Kind → (w : W) → T w → C (T w)} {k : Kind} {w : W}
    {t u : T w} {a : Fl} (hfl : E.flags k w t.toInt 0 = (false, false)) (ha : toExt E.L k w t = .ok a)
    (hf : f k w t = .ok u) (hr : fromExt E.L k w (ref a) = .ok u) : PassedUnary E ref f k w t := by
  refine ⟨_, ⟨a, ha, rfl⟩, u, u.toInt, hf, ?_, ?_, by simp⟩
  · rw [hfl]; exact .regular _ _ _ (.inl rfl) hr
  · intro _; exact ⟨fun h => h.2 rfl, fun h => h.2.1 rfl⟩

/-! ## The precision test -/

theorem widened_prefix (w : W) (t : T w) :
    (((widened w t >>> 48) &&& 0xffff#64).setWidth 16).toNat / 2 ^ 11 % 16 = dr t := by
  have h1 : (((widened w t >>> 48) &&& 0xffff#64).setWidth 16).toNat = (widened w t).toNat / 2 ^ 48 := by
    rw [BitVec.toNat_setWidth, BitVec.toNat_and, BitVec.toNat_ushiftRight, Nat.shiftRight_eq_div_pow]
    have : (0xffff#64).toNat = 2 ^ 16 - 1 := rfl
    rw [this, Nat.and_two_pow_sub_one_eq_mod]
    have := (widened w t).isLt
    omega
  rw [h1]
  unfold widened dr low
  rw [BitVec.toNat_shiftLeft, BitVec.toNat_ofInt, Nat.shiftLeft_eq]
  have hl := t.isLt
  rw [BitVec.toInt_eq_toNat_cond]
  cases w
  all_goals
    simp only [show W.w8.n = 8 from rfl, show W.w16.n = 16 from rfl, show W.w32.n = 32 from rfl, show W.w64.n = 64 from rfl] at hl ⊢
    generalize t.toNat = N at hl ⊢
    split_ifs <;> norm_num <;> omega

theorem prefix_regime (p : BitVec 16) :
    (if p &&& 0x4000#16 ≠ 0#16 then ((p &&& 0x3800#16) >>> 11).toNat else 7 - ((p &&& 0x3800#16) >>> 11).toNat) =
      rr (p.toNat / 2 ^ 11 % 16) := by
  have e1 : (p &&& 0x3800#16) >>> 11 = (p >>> 11) &&& 7#16 := by
    ext i hi
    have : i < 16 := hi
    interval_cases i <;> simp
  have e2 : ((p &&& 0x3800#16) >>> 11).toNat = p.toNat / 2 ^ 11 % 8 := by
    rw [e1, BitVec.toNat_and, BitVec.toNat_ushiftRight, Nat.shiftRight_eq_div_pow]
    exact Nat.and_two_pow_sub_one_eq_mod _ 3
  have e3 : p &&& 0x4000#16 ≠ 0#16 ↔ p.toNat / 2 ^ 14 % 2 = 1 := by
    have : p &&& 0x4000#16 = if p.getLsbD 14 then 0x4000#16 else 0#16 := by
      ext i hi
      have : i < 16 := hi
      interval_cases i <;> cases h : p.getLsbD 14 <;> simp_all
    rw [this]
    have hb : p.getLsbD 14 = decide (p.toNat / 2 ^ 14 % 2 = 1) := by
      rw [BitVec.getLsbD, Nat.testBit_eq_decide_div_mod_eq]
    rw [hb]
    by_cases h : p.toNat / 2 ^ 14 % 2 = 1 <;> simp
  rw [e2]
  simp only [e3]
  have hp := p.isLt
  obtain ⟨d, hd⟩ : ∃ d, d = p.toNat / 2 ^ 11 % 16 := ⟨_, rfl⟩
  have a1 : p.toNat / 2 ^ 11 % 8 = d % 8 := by omega
  have a2 : p.toNat / 2 ^ 14 % 2 = d / 8 := by omega
  rw [a1, a2, ← hd]
  have hd16 : d < 16 := by omega
  clear hd a1 a2
  revert d
  decide

theorem precisionReference_eq {L : Libm} {k : Kind} {w : W} {t : T w} {v : ℚ} (hv : v ≠ 0)
    (h : fromExt L k w (.num v) = .ok t) : precisionReference L (.num v) k w = .ok (w.n - 5 - r t) := by
  unfold precisionReference
  have h0 : Fl.eq (.num v) (.zero false) = false := by
    show decide (v = 0) = false
    rw [decide_eq_false hv]
  rw [h0]
  simp only [Fl.isfinite, Bool.not_true, Bool.or_false, Bool.false_eq_true, if_false]
  have key : (if (if ((widened w t >>> 48) &&& 0xffff#64).setWidth 16 &&& 0x4000#16 ≠ 0#16 then
      ((((widened w t >>> 48) &&& 0xffff#64).setWidth 16 &&& 0x3800#16) >>> 11).toNat
      else 7 - ((((widened w t >>> 48) &&& 0xffff#64).setWidth 16 &&& 0x3800#16) >>> 11).toNat) > w.n - 5 then 0
      else w.n - 5 - (if ((widened w t >>> 48) &&& 0xffff#64).setWidth 16 &&& 0x4000#16 ≠ 0#16 then
      ((((widened w t >>> 48) &&& 0xffff#64).setWidth 16 &&& 0x3800#16) >>> 11).toNat
      else 7 - ((((widened w t >>> 48) &&& 0xffff#64).setWidth 16 &&& 0x3800#16) >>> 11).toNat)) =
      w.n - 5 - r t := by
    rw [prefix_regime, widened_prefix, ← r_eq (by have := w.n_pos; omega)]
    split_ifs <;> omega
  cases k
  · have h' : logFrom L .ext w (.num v) = .ok t := h
    simp only
    rw [h', ok_bind]
    exact congrArg Except.ok key
  · have h' : linFrom .ext w (.num v) = .ok t := h
    simp only
    rw [h', ok_bind]
    exact congrArg Except.ok key

end Takum.Test
