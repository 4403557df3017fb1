import Verif.Props.TestBin
import Verif.Props.TestInt
import Verif.Props.Irrational
import Verif.Props.Powers

/-!
# C119: `power` with an integer exponent and `integer_power`
-/

namespace Takum
open Spec Test

/-- The float made from a takum that stands for an integer is that integer. -/
theorem to_integer {L : Libm} (hL : L.Conforming) {k : Kind} {w : W} {b : T w} {j : ℤ} (hb : value k b = some (j : ℝ)) :
    ∃ g, kTo L k w b = .ok g ∧ g.Is (j : ℚ) ∧ (kF k w).In (j : ℚ) := by
  obtain ⟨g, v, e, a⟩ := kTo_acc hL k w hb
  have hv : v = j := by
    cases k
    · by_cases h0 : (j : ℝ) = 0
      · have := a.zero.mp h0
        rw [this]; exact_mod_cast h0.symm
      have h1 : |(j : ℝ)| = 1 := by
        by_contra h1
        have : Irrational (j : ℝ) := log_number_irrational w b _ hb h0 (fun e => h1 (by rw [e]; simp)) (fun e => h1 (by rw [e]; simp))
        exact this ⟨j, by simp⟩
      have h2 := a.one.mp h1
      have h3 := a.neg
      rcases (abs_eq (by norm_num : (0 : ℝ) ≤ 1)).mp h1 with hj | hj
      · rw [hj] at h3
        have : ¬ v < 0 := fun h => absurd (h3.mpr h) (by norm_num)
        rw [abs_of_nonneg (not_lt.mp this)] at h2
        rw [h2]; exact_mod_cast hj.symm
      · rw [hj] at h3
        have : v < 0 := h3.mp (by norm_num)
        rw [abs_of_neg this] at h2
        rw [show v = -1 by linarith]; exact_mod_cast hj.symm
    · have := a.close
      simp only [inTol, zero_mul] at this
      have := abs_nonpos_iff.mp this
      have : (v : ℝ) = j := by linarith
      exact_mod_cast this
  exact ⟨g, e, hv ▸ a.is, hv ▸ a.isIn⟩

/-- In `long double` the two functions convert the same number. -/
theorem power_ext {L : Libm} (hL : L.Conforming) {k : Kind} {w : W} (hk : k = .lin ∨ w = .w64) (a b : T w) (n : BitVec 64)
    (hb : value k b = some (n.toInt : ℝ)) (h0 : n ≠ 0#64 ∨ Regular a) {f g : Fl} (ef : toExt L k w a = .ok f)
    (eg : kTo L k w b = .ok g) :
    integerPowerOf L k w a n = fromExt L k w (fixPower f g (L.pow x80 f g)) := by
  obtain ⟨g', eg', ig, hgi⟩ := to_integer hL hb
  rw [eg] at eg'
  obtain rfl := Except.ok.inj eg'
  have io : (Fl.ofInt x80 n.toInt).Is ((n.toInt : ℤ) : ℚ) := Fl.Is.ofInt_in (int64_in n)
  have nz : n.toInt = 0 ↔ n = 0#64 := by rw [← BitVec.toInt_inj]; simp
  have epow : L.pow x80 f (Fl.ofInt x80 n.toInt) = L.pow x80 f g := by
    by_cases hn : n.toInt = 0
    · have h : ∀ {r : Fl}, r.Is ((n.toInt : ℤ) : ℚ) → ∃ s, r = .zero s := by
        intro r hr
        rcases hr.cases with ⟨h, -⟩ | ⟨-, s, e⟩
        · exact absurd (by exact_mod_cast hn) h
        · exact ⟨s, e⟩
      obtain ⟨s, e⟩ := h io
      obtain ⟨s', e'⟩ := h ig
      rw [e, e', hL.specials.exp_zero, hL.specials.exp_zero]
    · have hn' : ((n.toInt : ℤ) : ℚ) ≠ 0 := by exact_mod_cast hn
      rw [io.eq_num hn', ig.eq_num hn']
  rw [power_eq L hk]
  by_cases hnar : a = nar w.n
  · subst hnar
    rw [if_pos (.inl rfl)]
    rw [toExt_nar hL.powers k w] at ef
    obtain rfl := Except.ok.inj ef
    have hn : n.toInt ≠ 0 := by
      rw [Ne, nz]
      rcases h0 with h | h
      · exact h
      · exact absurd rfl h.2
    rw [hL.nans.pow_left _ _ (fun z e => hn (by rw [e] at ig; exact_mod_cast (ig.unique (Fl.Is.zero z)))),
      show fixPower .nan g .nan = .nan from rfl, fromExt_nonfinite _ _ _ rfl]
  obtain ⟨f', v, ef', hf, iv, hv0, hvn, -, -, -⟩ := eTo_fin hL.powers k w hnar
  rw [← toExt_eTo, ef] at ef'
  obtain rfl := Except.ok.inj ef'
  by_cases t0 : a = 0#w.n
  · -- powers of zero
    have hn : n.toInt ≠ 0 := by
      rw [Ne, nz]
      rcases h0 with h | h
      · exact h
      · exact absurd t0 h.1
    have hn' : ((n.toInt : ℤ) : ℚ) ≠ 0 := by exact_mod_cast hn
    obtain ⟨z, rfl⟩ : ∃ z, f = .zero z := by
      rcases hf.cases with ⟨h, _⟩ | ⟨_, s, e⟩
      · exact absurd (hv0.mpr t0) h
      · exact ⟨s, e⟩
    rw [ig.eq_num hn']
    rcases lt_or_gt_of_ne hn with hlt | hgt
    · rw [if_pos (.inr ⟨t0, hlt.le⟩)]
      have := hL.specials.zero_neg x80 z _ (show ((n.toInt : ℤ) : ℚ) < 0 by exact_mod_cast hlt)
      cases e : L.pow x80 (.zero z) (.num (n.toInt : ℚ)) with
      | inf s => rw [fromExt_nonfinite _ _ _ (by simp [fixPower, Fl.eq, Fl.isinf, Fl.isfinite, Fl.toQ])]
      | _ => rw [e] at this; simp [Fl.isinf] at this
    · rw [if_neg (by rintro (h | h); exacts [hnar h, absurd h.2 (by omega)]), ef]
      obtain ⟨s', e⟩ := hL.powSigns.zero_pos x80 z _ (show 0 < ((n.toInt : ℤ) : ℚ) by exact_mod_cast hgt)
      show fromExt L k w (intPowFix a n.toInt (L.pow x80 (.zero z) (Fl.ofInt x80 n.toInt))) = _
      rw [io.eq_num hn', e, show intPowFix a n.toInt (.zero s') = .zero s' by unfold intPowFix; simp [Fl.isinf, t0],
        show fixPower (.zero z) (.num (n.toInt : ℚ)) (.zero s') = .zero false by simp [fixPower, Fl.eq, Fl.toQ], fromExt_zero, fromExt_zero]
  rw [if_neg (by rintro (h | h); exacts [hnar h, t0 h.1]), ef]
  show fromExt L k w (intPowFix a n.toInt (L.pow x80 f (Fl.ofInt x80 n.toInt))) = _
  rw [epow]
  congr 1
  have v0 : v ≠ 0 := fun h => t0 (hv0.mp h)
  have hz : ¬ Fl.eq f (.zero false) = true := by rw [Fl.eq_iff hf (Fl.Is.zero false)]; exact v0
  have ii : x80.In ((n.toInt : ℤ) : ℚ) := int64_in n
  generalize hraw : L.pow x80 f g = raw
  unfold intPowFix fixPower
  rw [if_neg hz, if_neg hz]
  cases raw with
  | nan => rfl
  | inf s => cases s <;> rfl
  | num q =>
    by_cases hq : q = 0
    · subst hq
      have hn : n.toInt ≠ 0 := by
        intro hn
        rcases ig.cases with ⟨h, -⟩ | ⟨-, s, rfl⟩
        · exact h (by exact_mod_cast hn)
        · rw [hL.specials.exp_zero] at hraw; simp at hraw
      have hn' : ((n.toInt : ℤ) : ℚ) ≠ 0 := by exact_mod_cast hn
      obtain ⟨-, -, r3⟩ := hL.powSigns.regular x80 (.inr rfl) v _ v0 hn' iv ii (.inr ⟨_, rfl⟩)
      rw [odd_rat, hvn, ← hf.eq_num v0, ← ig.eq_num hn', hraw] at r3
      have es : (isNeg a && odd n.toInt) = (Fl.num 0).sgn := by
        rw [Bool.eq_iff_iff, r3, Bool.and_eq_true, odd_iff, isNeg_eq, isNeg_iff]
      have h1 : (a != 0#w.n) = true := by simp [t0]
      rw [es, h1]; rfl
    · simp [Fl.eq, Fl.toQ, Fl.isinf, hq]
  | zero s =>
    have hn : n.toInt ≠ 0 := by
      intro hn
      rcases ig.cases with ⟨h, -⟩ | ⟨-, s, rfl⟩
      · exact h (by exact_mod_cast hn)
      · rw [hL.specials.exp_zero] at hraw; simp at hraw
    have hn' : ((n.toInt : ℤ) : ℚ) ≠ 0 := by exact_mod_cast hn
    obtain ⟨-, -, r3⟩ := hL.powSigns.regular x80 (.inr rfl) v _ v0 hn' iv ii (.inr ⟨_, rfl⟩)
    rw [odd_rat, hvn, ← hf.eq_num v0, ← ig.eq_num hn', hraw] at r3
    have es : (isNeg a && odd n.toInt) = (Fl.zero s).sgn := by
      rw [Bool.eq_iff_iff, r3, Bool.and_eq_true, odd_iff, isNeg_eq, isNeg_iff]
    have h1 : (a != 0#w.n) = true := by simp [t0]
    rw [es, h1]; rfl

/-- C119: if the second argument of `power` stands for an integer, the result is that of `integer_power`, bit for bit in
`takum_linear64` and `takum64`, and at most one unit away in the other linear types, which compute `power` in `double`.  The base may
be 0 or NaR if the exponent is not 0. -/
theorem power_integer {L : Libm} (hL : L.Conforming) (hA : L.Approximates) {k : Kind} {w : W} (hk : k = .lin ∨ w = .w64) (a b : T w)
    (n : BitVec 64) (hb : value k b = some (n.toInt : ℝ)) (h0 : n ≠ 0#64 ∨ Regular a) :
    ∃ p q : T w, BFun.power.call L k w a b = .ok p ∧ integerPowerOf L k w a n = .ok q ∧ (w = .w64 → p = q) ∧
      |p.toInt - q.toInt| ≤ 1 := by
  obtain ⟨f, ef⟩ := toExt_ok L k w a
  obtain ⟨g, eg'⟩ := toExt_ok L k w b
  have kf := toExt_kTo ef
  have eg := toExt_kTo eg'
  have e := power_ext hL hk a b n hb h0 ef eg
  have ec : BFun.power.call L k w a b = kFrom L k w (fixPower f g (L.pow (kF k w) f g)) := bcall_eq kf eg
  by_cases hkw : k = .log ∨ w = .w64
  · obtain ⟨q, eq⟩ := fromExt_ok L k w (fixPower f g (L.pow x80 f g))
    refine ⟨q, q, ?_, e.trans eq, fun _ => rfl, by simp⟩
    rw [ec]
    cases k
    · exact eq
    · obtain rfl : w = .w64 := by rcases hkw with h | h; exacts [absurd h (by simp), h]
      exact eq
  · obtain ⟨k1, w1⟩ := not_or.mp hkw
    obtain rfl : k = .lin := by cases k; exacts [absurd rfl k1, rfl]
    have hs : w.src = .f64 := by cases w <;> first | rfl | exact absurd rfl w1
    have hF : kF .lin w = b64 := by cases w <;> first | rfl | exact absurd rfl w1
    have ca := Test.arg_cases hL kf
    have cb := Test.arg_cases hL eg
    have ia : f.isinf = false := by rcases ca with ⟨-, rfl⟩ | ⟨v, x, h, -⟩; exacts [rfl, h.is.isinf]
    have ib : g.isinf = false := by rcases cb with ⟨-, rfl⟩ | ⟨v, x, h, -⟩; exacts [rfl, h.is.isinf]
    have hp : Pair2 L .power w f g := by
      by_cases hn : f = .nan ∨ g = .nan
      · exact pair2_nan hL .power w1 ia ib hn
      · rcases ca with ⟨-, e⟩ | ⟨v, x, h, -⟩
        · exact absurd (.inl e) hn
        rcases cb with ⟨-, e⟩ | ⟨v', x', h', -⟩
        · exact absurd (.inr e) hn
        have A1 := h.toArg
        have B1 := h'.toArg
        rw [hF] at A1 B1
        have A2 : Arg x80 w f v x := { h.toArg with isIn := in_x80 (kF_std .lin w) h.isIn }
        have B2 : Arg x80 w g v' x' := { h'.toArg with isIn := in_x80 (kF_std .lin w) h'.isIn }
        exact pair2_good w1 (good2_fmt hL hA .power (Or.inl rfl) A1 B1 h.zpos h'.zpos)
          (good2_fmt hL hA .power (Or.inr rfl) A2 B2 h.zpos h'.zpos)
    obtain ⟨p, q, e1, e2, e3⟩ := hp
    refine ⟨p, q, ?_, e.trans e2, fun h => absurd h w1, e3⟩
    rw [ec, hF]
    show linFrom w.src w _ = _
    rw [hs]; exact e1

/-- The exponent 3, and a base whose third power is not exact. -/
example : ideal.Conforming ∧ ideal.Approximates ∧ value .lin (0x4a00#16 : T .w16) = some (((3#64 : BitVec 64).toInt : ℤ) : ℝ) ∧
    Regular (0x4401#16 : T .w16) := by
  refine ⟨ideal_conforming, ideal_approximates, ?_, by constructor <;> decide⟩
  have h : linVal (0x4a00#16 : T .w16) = some 3 := by decide +kernel
  have h2 : (3#64 : BitVec 64).toInt = 3 := by decide
  simp only [value, h, h2, Option.map_some]
  norm_num

/-- C119: the condition on the base is needed: for exponent 0 and base 0 or NaR, `power` returns 1 and `integer_power` NaR, in all eight
types. -/
theorem power_integer_zero {L : Libm} (hL : L.Conforming) (k : Kind) (w : W) :
    BFun.power.call L k w 0#w.n 0#w.n = .ok (ONE w) ∧ integerPowerOf L k w 0#w.n 0#64 = .ok (nar w.n) ∧
    BFun.power.call L k w (nar w.n) 0#w.n = .ok (ONE w) ∧ integerPowerOf L k w (nar w.n) 0#64 = .ok (nar w.n) := by
  have hz := zero_ne_nar w
  have I := integer_power_sign L hL.powers hL.specials hL.logs hL.powSigns k w
  obtain ⟨v, e, -, -, -, h⟩ := power_sign L hL.powers hL.specials hL.logs hL.powSigns k w 0#w.n 0#w.n hz hz
  obtain ⟨v1, e1, h1, -⟩ := I 0#w.n 0#64
  obtain ⟨v2, e2, h2, -⟩ := I (nar w.n) 0#64
  refine ⟨by rw [e, h rfl], by rw [e1, h1.mpr (.inr ⟨rfl, by decide⟩)], ?_, by rw [e2, h2.mpr (.inl rfl)]⟩
  have P := power_nar_refuted L hL.nans hL.powers hL.specials w
  cases k
  · exact P.1.1
  · exact P.2.1.1

end Takum
