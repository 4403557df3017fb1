import Verif.Lemmas.Widths
import Verif.Lemmas.LinNear
import Verif.Props.Format

/-!
# Conversions between widths (C13 – C18)

`expand a b` and `reduce a b` model the C functions `takumB_from_takumA` and
`takum_linearB_from_takum_linearA`, which are instances of the same two macros.
-/

namespace Takum
open Spec

/-- C13: widening is exact, for the logarithmic and the linear reading of the bits. -/
theorem widen_exact {a b : W} (h : a.n < b.n) (t : T a) :
    ∃ v : T b, expand a b t = .ok v ∧ logVal v = logVal t ∧ linVal v = linVal t ∧
      (v = nar b.n ↔ t = nar a.n) ∧ (v = 0#b.n ↔ t = 0#a.n) := by
  have ha := a.n_pos
  have hb := b.n_pos
  obtain ⟨v, e, hm, hl⟩ := expand_spec h t
  obtain ⟨c1, c2, c3, c4, _⟩ := logVal_congr (by omega) (by omega) hm (expand_pos h hl)
  exact ⟨v, e, c1, c2, c3, c4⟩

example : (W.w8).n < (W.w64).n ∧ expand .w8 .w64 0x93#8 = .ok 0x9300000000000000#64 :=
  ⟨by decide, by decide +kernel⟩

/-- C14, first half: narrowing a widened takum gives it back. -/
theorem narrow_widen {a b : W} (h : a.n < b.n) (t : T a) :
    ∃ v : T b, expand a b t = .ok v ∧ reduce b a v = .ok t := by
  have ha := a.n_pos
  have hb := b.n_pos
  obtain ⟨v, e, hm, hl⟩ := expand_spec h t
  refine ⟨v, e, ?_⟩
  obtain ⟨_, _, c3, c4, _⟩ := logVal_congr (by omega) (by omega) hm (expand_pos h hl)
  by_cases h0 : t = 0#a.n
  · rw [c4.mpr h0, h0]; exact reduce_zero h
  by_cases h1 : t = nar a.n
  · rw [c3.mpr h1, h1]; exact reduce_nar h
  have hr : Regular v := ⟨fun e => h0 (c4.mp e), fun e => h1 (c3.mp e)⟩
  rw [reduce_regular h hr, expand_pos h hl, nearK_pos_of_regular (by omega) ⟨h0, h1⟩, hm,
    ← eq_mkT (by omega)]

example : (W.w16).n < (W.w32).n ∧ expand .w16 .w32 0xc123#16 = .ok 0xc1230000#32 ∧
    reduce .w32 .w16 0xc1230000#32 = .ok 0xc123#16 := ⟨by decide, by decide +kernel, by decide +kernel⟩

/-- C14, second half: widening in two steps is widening in one step. -/
theorem widen_widen {a b c : W} (h : a.n < b.n) (h' : b.n < c.n) (t : T a) :
    ∃ (v : T b) (u : T c), expand a b t = .ok v ∧ expand b c v = .ok u ∧ expand a c t = .ok u := by
  have ha := a.n_pos
  obtain ⟨v, e, hm, hl⟩ := expand_spec h t
  obtain ⟨u, e', hm', hl'⟩ := expand_spec h' v
  obtain ⟨u', e'', hm'', hl''⟩ := expand_spec (h.trans h') t
  refine ⟨v, u, e, e', ?_⟩
  have : u' = u := by
    apply ext_low (by omega)
    · rw [hm'', hm', hm]
    · rw [hl'', hl', hl, mul_assoc, ← pow_add]; congr 2; omega
  rw [← this]; exact e''

example : (W.w8).n < (W.w16).n ∧ (W.w16).n < (W.w64).n := by decide

/-- C15: narrowing rounds to nearest on the logarithmic scale, and for the linear reading of the
bits and at least 16 of them also in value. -/
theorem narrow_nearest {a b : W} (h : b.n < a.n) (t : T a) (ht : Regular t) :
    ∃ v : T b, reduce a b t = .ok v ∧ NearestEll t.msb (ell t) v ∧
      (16 ≤ b.n → ∀ q, linVal t = some q → NearestLin q v) := by
  have hb := b.n_pos
  have hN : NearestEll t.msb (ell t) (mkT b.n t.msb (nearK b.n (pos t))) := by
    rw [ell_sg (by omega)]
    exact nearest_mkT (by omega) _ (pos_nonneg t) (pos_lt (by omega) t)
  refine ⟨_, reduce_regular h ht, hN, ?_⟩
  intro h16 q hq
  rw [linVal_sg (by omega) ht, Option.some.injEq] at hq
  rw [← hq]; exact nearestLin_of_ell (by omega) hN

example : (W.w8).n < (W.w16).n ∧ Regular 0x417f#16 ∧ reduce .w16 .w8 0x417f#16 = .ok 0x41#8 ∧
    reduce .w16 .w8 0x4180#16 = .ok 0x42#8 := ⟨by decide, by unfold Regular; decide, by decide +kernel, by decide +kernel⟩

/-- C16: narrowing keeps NaR, zero and the sign; arguments beyond the largest or below the smallest
magnitude saturate. -/
theorem narrow_special {a b : W} (h : b.n < a.n) (t : T a) :
    ∃ v : T b, reduce a b t = .ok v ∧ (v = nar b.n ↔ t = nar a.n) ∧ (v = 0#b.n ↔ t = 0#a.n) ∧
      v.msb = t.msb ∧
      ((2 ^ (b.n - 1) - 1) * 2 ^ (a.n - b.n) ≤ t.toInt → v.toInt = 2 ^ (b.n - 1) - 1) ∧
      (t.toInt ≤ -((2 ^ (b.n - 1) - 1) * 2 ^ (a.n - b.n)) → t ≠ nar a.n → v.toInt = -(2 ^ (b.n - 1) - 1)) ∧
      (0 < t.toInt → t.toInt ≤ 2 ^ (a.n - b.n) → v.toInt = 1) ∧
      (t.toInt < 0 → -2 ^ (a.n - b.n) ≤ t.toInt → v.toInt = -1) := by
  have hb := b.n_pos
  have ha1 : 1 ≤ a.n := by omega
  have hb1 : 1 ≤ b.n := by omega
  have pA : (2 : ℤ) ^ (a.n - 1) = 2 ^ (b.n - 1) * 2 ^ (a.n - b.n) := by
    rw [← pow_add]; congr 1; omega
  have hB : (2 : ℤ) ≤ 2 ^ (b.n - 1) := by
    calc (2 : ℤ) = 2 ^ 1 := by norm_num
      _ ≤ 2 ^ (b.n - 1) := pow_le_pow_right₀ (by norm_num) (by omega)
  have hD : (2 : ℤ) ≤ 2 ^ (a.n - b.n) := by
    calc (2 : ℤ) = 2 ^ 1 := by norm_num
      _ ≤ 2 ^ (a.n - b.n) := pow_le_pow_right₀ (by norm_num) (by omega)
  by_cases h0 : t = 0#a.n
  · subst h0
    refine ⟨_, reduce_zero h, ?_, ?_, ?_, ?_⟩
    · simp [(nar_ne_zero hb1).symm, (nar_ne_zero ha1).symm]
    · simp
    · simp
    · simp only [BitVec.toInt_zero]
      refine ⟨?_, ?_, ?_, ?_⟩
      · intro h; nlinarith
      · intro h; nlinarith
      · intro h; omega
      · intro h; omega
  by_cases h1 : t = nar a.n
  · subst h1
    refine ⟨_, reduce_nar h, by simp, ?_, ?_, ?_⟩
    · simp [nar_ne_zero hb1, nar_ne_zero ha1]
    · rw [nar_msb hb1, nar_msb ha1]
    · rw [nar_toInt ha1, pA]
      refine ⟨?_, ?_, ?_, ?_⟩
      · intro h; nlinarith
      · intro _ h; exact absurd rfl h
      · intro h; nlinarith
      · intro _ h; nlinarith
  have hr : Regular t := ⟨h0, h1⟩
  have hk := nearK_lt (by omega : 2 ≤ b.n) (pos t)
  have hk1 := nearK_pos b.n (pos t)
  have hR := regular_mkT hb1 t.msb hk1 hk
  have hm : (mkT b.n t.msb (nearK b.n (pos t))).msb = t.msb := mkT_msb hb1 _ hk
  have hlt := low_lt t
  have hlp := low_pos ha1 hr
  have eA : ((2 ^ (a.n - 1) : ℕ) : ℤ) = 2 ^ (b.n - 1) * 2 ^ (a.n - b.n) := by rw [← pA]; push_cast; rfl
  have eB : ((2 ^ (b.n - 1) : ℕ) : ℤ) = 2 ^ (b.n - 1) := by push_cast; rfl
  have hpos : pos t * ((2 ^ (b.n - 5) : ℕ) : ℚ) = (low t : ℚ) / ((2 ^ (a.n - b.n) : ℕ) : ℚ) := by
    unfold pos
    have : (2 ^ (a.n - 5) : ℕ) = 2 ^ (b.n - 5) * 2 ^ (a.n - b.n) := by rw [← pow_add]; congr 1; omega
    rw [this]; push_cast; field_simp
  have hDq : (0 : ℚ) < ((2 ^ (a.n - b.n) : ℕ) : ℚ) := by positivity
  -- the two ends
  have top : (2 ^ (b.n - 1) - 1) * 2 ^ (a.n - b.n) ≤ (low t : ℤ) → (nearK b.n (pos t) : ℤ) = 2 ^ (b.n - 1) - 1 := by
    intro hh
    have hkm := kMax_add_one b.n
    have : (kMax b.n : ℤ) ≤ rne (pos t * ((2 ^ (b.n - 5) : ℕ) : ℚ)) := by
      apply le_rne_of_le
      rw [hpos, le_div_iff₀ hDq]
      have e : (kMax b.n : ℤ) = 2 ^ (b.n - 1) - 1 := by rw [← eB]; omega
      rw [e]; exact_mod_cast hh
    unfold nearK
    have := kMax_pos (by omega : 2 ≤ b.n)
    omega
  have bot : (low t : ℤ) ≤ 2 ^ (a.n - b.n) → nearK b.n (pos t) = 1 := by
    intro hh
    have : rne (pos t * ((2 ^ (b.n - 5) : ℕ) : ℚ)) ≤ 1 := by
      apply rne_le_of_le
      rw [hpos, div_le_iff₀ hDq]
      push_cast; rw [one_mul]; exact_mod_cast hh
    unfold nearK
    have := kMax_pos (by omega : 2 ≤ b.n)
    omega
  refine ⟨_, reduce_regular h hr, by simp [h1, hR.2], by simp [h0, hR.1], hm, ?_⟩
  rw [toInt_mkT ha1 t, toInt_mkT hb1, hm, mkT_low hb1 _ hk]
  have hs := nearK_symm (by omega : 5 ≤ b.n) (pos t)
  cases hms : t.msb
  · simp only [Bool.false_eq_true, if_false, sub_zero]
    refine ⟨top, ?_, ?_, ?_⟩
    · intro hh; nlinarith
    · intro _ hh; rw [bot hh]; rfl
    · intro hh; omega
  · simp only [if_true]
    rw [pA]
    have hlt' : (low t : ℤ) < 2 ^ (b.n - 1) * 2 ^ (a.n - b.n) := by rw [← eA]; exact_mod_cast hlt
    refine ⟨?_, ?_, ?_, ?_⟩
    · intro hh; nlinarith
    · intro hh _
      rw [bot (by nlinarith)]; push_cast; ring
    · intro hh; omega
    · intro _ hh
      rw [top (by nlinarith)]; ring

example : (W.w8).n < (W.w16).n ∧ (2 ^ 7 - 1) * 2 ^ 8 ≤ (0x7fff#16).toInt ∧
    reduce .w16 .w8 0x7fff#16 = .ok 0x7f#8 ∧ reduce .w16 .w8 0x0003#16 = .ok 0x01#8 ∧
    reduce .w16 .w8 0x8001#16 = .ok 0x81#8 ∧ reduce .w16 .w8 0xfffd#16 = .ok 0xff#8 :=
  ⟨by decide, by decide, by decide +kernel, by decide +kernel, by decide +kernel, by decide +kernel⟩

/-- C17: narrowing is monotone. -/
theorem narrow_mono {a b : W} (h : b.n < a.n) (t t' : T a) (htt : t.toInt ≤ t'.toInt) :
    ∃ v v' : T b, reduce a b t = .ok v ∧ reduce a b t' = .ok v' ∧ v.toInt ≤ v'.toInt := by
  have hb := b.n_pos
  have ha1 : 1 ≤ a.n := by omega
  have hb1 : 1 ≤ b.n := by omega
  obtain ⟨v, e, hn, hz, hm, -⟩ := narrow_special h t
  obtain ⟨v', e', hn', hz', hm', -⟩ := narrow_special h t'
  refine ⟨v, v', e, e', ?_⟩
  have sgn : ∀ {n : ℕ} (hn : 1 ≤ n) (x : BitVec n), x.msb = true ↔ x.toInt < 0 := by
    intro n hn x
    rw [toInt_mkT hn]
    have h1 := low_lt x
    have h3 : ((2 ^ (n - 1) : ℕ) : ℤ) = 2 ^ (n - 1) := by push_cast; rfl
    cases x.msb <;> simp <;> omega
  by_cases h1 : t = nar a.n
  · rw [hn.mpr h1]
    by_cases h2 : v' = nar b.n
    · rw [h2]
    · exact (nar_lt hb1 h2).le
  have h1' : t' ≠ nar a.n := by
    rintro rfl
    exact absurd (nar_lt ha1 h1) (by omega)
  by_cases h0 : t = 0#a.n
  · rw [hz.mpr h0]
    have : ¬ t'.toInt < 0 := by rw [h0] at htt; simpa using htt
    rw [← sgn ha1, ← hm', sgn hb1] at this
    simp only [BitVec.toInt_zero]; omega
  by_cases h0' : t' = 0#a.n
  · rw [hz'.mpr h0']
    have : t.toInt ≤ 0 := by rw [h0'] at htt; simpa using htt
    have hne : t.toInt ≠ 0 := fun e => h0 (BitVec.eq_of_toInt_eq (by simpa using e))
    have : t.toInt < 0 := by omega
    rw [← sgn ha1, ← hm, sgn hb1] at this
    simp only [BitVec.toInt_zero]; omega
  have hr : Regular t := ⟨h0, h1⟩
  have hr' : Regular t' := ⟨h0', h1'⟩
  by_cases hms : t.msb = t'.msb
  · rw [reduce_regular h hr] at e
    rw [reduce_regular h hr'] at e'
    have e1 : v = _ := (Except.ok.inj e).symm
    have e2 : v' = _ := (Except.ok.inj e').symm
    rw [e1, e2, hms, toInt_mkT_le hb1 _ (nearK_lt (by omega) _) (nearK_lt (by omega) _)]
    apply nearK_mono
    rw [toInt_mkT ha1, toInt_mkT ha1, hms] at htt
    unfold pos
    apply div_le_div_of_nonneg_right _ (by positivity)
    exact_mod_cast (by omega : low t ≤ low t')
  · cases hq : t.msb <;> cases hq' : t'.msb <;> simp [hq, hq'] at hms
    · have := (sgn ha1 t').mp hq'
      have := mt (sgn ha1 t).mpr (by simp [hq])
      omega
    · have := (sgn hb1 v).mp (by rw [hm, hq])
      have := mt (sgn hb1 v').mpr (by simp [hm', hq'])
      omega

example : (0x4180#16).toInt ≤ (0x4290#16).toInt ∧ reduce .w16 .w8 0x4180#16 = .ok 0x42#8 ∧
    reduce .w16 .w8 0x4290#16 = .ok 0x43#8 := ⟨by decide, by decide +kernel, by decide +kernel⟩

/-- C17: narrowing commutes with negation. -/
theorem narrow_neg {a b : W} (h : b.n < a.n) (t : T a) :
    ∃ v : T b, reduce a b t = .ok v ∧ reduce a b (-t) = .ok (-v) := by
  have hb := b.n_pos
  by_cases h0 : t = 0#a.n
  · subst h0
    exact ⟨_, reduce_zero h, by rw [BitVec.neg_zero, BitVec.neg_zero]; exact reduce_zero h⟩
  by_cases h1 : t = nar a.n
  · subst h1
    refine ⟨_, reduce_nar h, ?_⟩
    rw [(neg_value (by omega) (nar a.n)).2.2.mpr (Or.inr rfl),
      (neg_value (by omega) (nar b.n)).2.2.mpr (Or.inr rfl)]
    exact reduce_nar h
  have hr : Regular t := ⟨h0, h1⟩
  obtain ⟨hm, hl, hr', -⟩ := regular_neg (by omega) hr
  refine ⟨_, reduce_regular h hr, ?_⟩
  rw [reduce_regular h hr', neg_mkT (by omega) _ (nearK_pos _ _) (nearK_lt (by omega) _), hm,
    pos_of_low_sub (by omega) hl, nearK_symm (by omega)]

example : reduce .w32 .w8 0x4281ffff#32 = .ok 0x43#8 ∧ reduce .w32 .w8 (-0x4281ffff#32) = .ok (-0x43#8) :=
  ⟨by decide +kernel, by decide +kernel⟩

/-- C17: narrowing commutes with the inversion of logarithmic takums. -/
theorem narrow_inversion {a b : W} (h : b.n < a.n) (t : T a) (ht : Regular t) :
    ∃ v : T b, reduce a b t = .ok v ∧ reduce a b (inversion a t) = .ok (inversion b v) := by
  have hb := b.n_pos
  have hk1 := nearK_pos b.n (pos t)
  have hk := nearK_lt (by omega : 2 ≤ b.n) (pos t)
  have hR := regular_mkT (by omega) t.msb hk1 hk
  obtain ⟨hm, hl, hr', -⟩ := inversion_facts ht
  refine ⟨_, reduce_regular h ht, ?_⟩
  rw [reduce_regular h hr', inversion_regular hR, hm, mkT_msb (by omega) _ hk, mkT_low (by omega) _ hk,
    pos_of_low_sub (by omega) hl, nearK_symm (by omega)]

example : (W.w8).n < (W.w16).n ∧ Regular 0x4180#16 ∧ reduce .w16 .w8 (inversion .w16 0x4180#16) = .ok 0x3e#8 ∧
    inversion .w8 0x42#8 = 0x3e#8 := ⟨by decide, by unfold Regular; decide, by decide +kernel, by decide +kernel⟩

/-- C18 is false: 32 bits to 16 to 8 bits is not 32 to 8 bits. -/
theorem two_step_narrow_refuted :
    ∃ (t : T .w32) (v : T .w16) (x y : T .w8), reduce .w32 .w16 t = .ok v ∧ reduce .w16 .w8 v = .ok x ∧
      reduce .w32 .w8 t = .ok y ∧ x ≠ y :=
  ⟨0x417fffff#32, 0x4180#16, 0x42#8, 0x41#8, by decide +kernel, by decide +kernel, by decide +kernel, by decide⟩

/-- C18, what holds instead: narrowing in two steps and narrowing directly differ by at most one unit
in the last place, and agree unless the intermediate result lies exactly in the middle of two
results.  Missing for C18: the ties of the intermediate result (see `two_step_narrow_refuted`). -/
theorem two_step_narrow_partial {a b c : W} (h : b.n < a.n) (h' : c.n < b.n) (t : T a) :
    ∃ (v : T b) (x y : T c), reduce a b t = .ok v ∧ reduce b c v = .ok x ∧ reduce a c t = .ok y ∧
      |x.toInt - y.toInt| ≤ 1 ∧ (v.toNat % 2 ^ (b.n - c.n) ≠ 2 ^ (b.n - c.n - 1) → x = y) := by
  have hc := c.n_pos
  by_cases h0 : t = 0#a.n
  · subst h0
    exact ⟨_, _, _, reduce_zero h, reduce_zero h', reduce_zero (h'.trans h), by simp, fun _ => rfl⟩
  by_cases h1 : t = nar a.n
  · subst h1
    exact ⟨_, _, _, reduce_nar h, reduce_nar h', reduce_nar (h'.trans h), by simp, fun _ => rfl⟩
  have hr : Regular t := ⟨h0, h1⟩
  set k := nearK b.n (pos t) with hkd
  have hk1 : 1 ≤ k := nearK_pos b.n (pos t)
  have hk : k < 2 ^ (b.n - 1) := nearK_lt (by omega : 2 ≤ b.n) (pos t)
  have hR := regular_mkT (by omega : 1 ≤ b.n) t.msb hk1 hk
  have hm := mkT_msb (by omega : 1 ≤ b.n) t.msb hk
  refine ⟨_, _, _, reduce_regular h hr, reduce_regular h' hR, reduce_regular (h'.trans h) hr, ?_, ?_⟩
  · rw [hm, pos_mkT (by omega) _ hk, toInt_mkT (by omega), toInt_mkT (by omega),
      mkT_msb (by omega) _ (nearK_lt (by omega) _), mkT_msb (by omega) _ (nearK_lt (by omega) _),
      mkT_low (by omega) _ (nearK_lt (by omega) _), mkT_low (by omega) _ (nearK_lt (by omega) _), abs_le]
    have := (nearK_nearK hc h' (pos_pos (by omega) hr) (pos_lt (by omega) t)).1
    rw [← hkd, abs_le] at this
    constructor <;> omega
  · intro hne
    rw [hm, pos_mkT (by omega) _ hk, (nearK_nearK hc h' (pos_pos (by omega) hr) (pos_lt (by omega) t)).2]
    intro he
    apply hne
    rw [mkT_toNat (by omega) _ hk]
    have : 2 ^ (b.n - 1) = 2 ^ (b.n - c.n) * 2 ^ (c.n - 1) := by rw [← pow_add]; congr 1; omega
    rw [this, mul_left_comm, Nat.mul_add_mod]; exact he

example : (W.w16).n < (W.w32).n ∧ (W.w8).n < (W.w16).n ∧ reduce .w32 .w16 0x41800001#32 = .ok 0x4180#16 ∧
    reduce .w32 .w16 0x41818001#32 = .ok 0x4182#16 ∧ (0x4182#16).toNat % 2 ^ 8 ≠ 2 ^ 7 :=
  ⟨by decide, by decide, by decide +kernel, by decide +kernel, by decide⟩

end Takum
