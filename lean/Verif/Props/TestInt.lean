import Verif.Lemmas.TestInt
import Verif.Props.TestArithmetic
import Verif.Props.Powers

/-!
# C89: the test programs of the integer power and the root

`Raises E ref`: the exceptions that a conforming `powl` raises.
-/

namespace Takum.Test
open Takum Spec

/-- The exception flags of the cases of a test of a takum and an integer: overflow exactly if the
reference is infinite for a number other than zero, and underflow if it is zero for such a number and not
if it is the power of zero.  Nothing is said of the underflow flag of other results (it does not matter). -/
def Raises (E : Env) (ref : Fl → ℤ → Fl) : Prop :=
  ∀ k w (t : T w) (n : ℤ) raw, RefIs E.L k w t (ref · n) raw →
    ((E.flags k w t.toInt n).2 = true ↔ raw.isinf = true ∧ t ≠ 0#w.n) ∧
    (raw.isfinite = true ∧ raw.toQ = 0 → ((E.flags k w t.toInt n).1 = true ↔ t ≠ 0#w.n))

/-- The integer is an `int64_t`. -/
def IsInt64 (n : ℤ) : Prop := -2 ^ 63 ≤ n ∧ n < 2 ^ 63

theorem toInt_int64 {n : ℤ} (h : IsInt64 n) : (BitVec.ofInt 64 n).toInt = n :=
  toInt_ofInt_W (w := .w64) ⟨h.1, h.2⟩

theorem power_eq (L : Libm) {k : Kind} {w : W} (hk : k = .lin ∨ w = .w64) (t : T w) (n : BitVec 64) :
    integerPowerOf L k w t n =
      if t = nar w.n ∨ (t = 0#w.n ∧ n.toInt ≤ 0) then .ok (nar w.n)
      else toExt L k w t >>= fun f =>
        fromExt L k w (intPowFix t n.toInt (L.pow x80 f (Fl.ofInt x80 n.toInt))) := by
  cases k
  · obtain rfl : w = .w64 := by simpa using hk
    rfl
  · cases w <;> rfl

/-- A case is passed if the function returns the conversion of the reference. -/
theorem int_regular {E : Env} {ref : Fl → ℤ → Fl} {f : Kind → (w : W) → T w → ℤ → C (T w)} {k : Kind} {w : W}
    {t : T w} {n : ℤ} {a : Fl} (hE : Raises E ref) (ha : toExt E.L k w t = .ok a)
    (hf : f k w t n = fromExt E.L k w (ref a n)) (hi : (ref a n).isinf = true → t = 0#w.n)
    (hz : (ref a n).isfinite = true ∧ (ref a n).toQ = 0 → t = 0#w.n) : PassedInt E ref f k w t n := by
  obtain ⟨u, hu⟩ := fromExt_ok E.L k w (ref a n)
  obtain ⟨f1, f2⟩ := hE k w t n _ ⟨a, ha, rfl⟩
  refine int_equal ha (hf.trans hu) ?_
  have o : (E.flags k w t.toInt n).2 = false := by
    rw [← Bool.not_eq_true, f1]; exact fun h => h.2 (hi h.1)
  rw [show E.flags k w t.toInt n = ((E.flags k w t.toInt n).1, false) by rw [← o]]
  refine .regular _ _ _ ?_ hu
  by_cases h : (ref a n).isfinite = true ∧ (ref a n).toQ = 0
  · left
    rw [← Bool.not_eq_true, f2 h]; exact fun h' => h' (hz h)
  · exact .inr h

theorem bad_from (L : Libm) (k : Kind) (w : W) {f : Fl} (h : f.isfinite = false) : fromExt L k w f = .ok (nar w.n) := by
  rw [fromExt_eFrom]; exact eFrom_bad k w h

/-- C89. Every case of the test of the integer power is passed, for linear takums and for logarithmic
takums of 64 bits, with every `int64_t` as exponent. -/
theorem power_case {E : Env} (hL : E.L.Conforming) (hE : Raises E (integerPowerReference E.L)) {k : Kind} {w : W}
    (hk : k = .lin ∨ w = .w64) (t : T w) {n : ℤ} (hn : IsInt64 n) :
    PassedInt E (integerPowerReference E.L) (fun k w t n => integerPowerOf E.L k w t (BitVec.ofInt 64 n)) k w t n := by
  have tn := toInt_int64 hn
  by_cases h : t = nar w.n
  · subst h
    have ha := toExt_nar hL.powers k w
    have e : integerPowerReference E.L .nan n = .nan := rfl
    refine int_regular hE ha ?_ (by simp [e, Fl.isinf]) (by simp [e, Fl.isfinite])
    rw [e, bad_from E.L k w rfl]
    show integerPowerOf E.L k w _ _ = _
    rw [power_eq E.L hk, if_pos (.inl rfl)]
  obtain ⟨f, v, ef, hf, iv, hv0, hvn, -, -, -⟩ := eTo_fin hL.powers k w h
  rw [← toExt_eTo] at ef
  have hnan : f.isnan = false := by
    rcases hf.cases with ⟨_, rfl⟩ | ⟨_, s, rfl⟩ <;> rfl
  have hzero : Fl.eq f (.zero false) = decide (t = 0#w.n) := by
    rcases hf.cases with ⟨h0, rfl⟩ | ⟨h0, s, rfl⟩
    · have : t ≠ 0#w.n := fun h' => h0 (hv0.mpr h')
      simp [Fl.eq, Fl.toQ, h0, this]
    · simp [Fl.eq, Fl.toQ, hv0.mp h0]
  have eref : integerPowerReference E.L f n = if t = 0#w.n ∧ n = 0 then .nan else E.L.pow x80 f (Fl.ofInt x80 n) := by
    unfold integerPowerReference
    rw [hnan, hzero]; simp
  have efun := power_eq E.L hk t (BitVec.ofInt 64 n)
  rw [tn] at efun
  by_cases hz : t = 0#w.n ∧ n ≤ 0
  · -- powers of zero that are not defined
    rw [if_pos (.inr hz)] at efun
    have bad : (integerPowerReference E.L f n).isfinite = false := by
      rw [eref]
      by_cases n0 : n = 0
      · rw [if_pos ⟨hz.1, n0⟩]; rfl
      · rw [if_neg (fun h => n0 h.2)]
        have hq : ((n : ℤ) : ℚ) < 0 := by exact_mod_cast lt_of_le_of_ne hz.2 n0
        have io : (Fl.ofInt x80 n).Is ((n : ℤ) : ℚ) := by
          have := Fl.Is.ofInt_in (int64_in (BitVec.ofInt 64 n)); rwa [tn] at this
        rw [io.eq_num hq.ne]
        rcases hf.cases with ⟨h0, _⟩ | ⟨_, s, rfl⟩
        · exact absurd (hv0.mpr hz.1) h0
        · have := hL.specials.zero_neg x80 s _ hq
          cases hr : E.L.pow x80 (.zero s) (.num (n : ℚ)) <;> rw [hr] at this <;> first | rfl | exact absurd this (by simp [Fl.isinf])
    refine int_regular hE ef (efun.trans (bad_from E.L k w bad).symm) (fun _ => hz.1) (fun _ => hz.1)
  rw [if_neg (by tauto), ef] at efun
  have efun : integerPowerOf E.L k w t (BitVec.ofInt 64 n) =
      fromExt E.L k w (intPowFix t n (E.L.pow x80 f (Fl.ofInt x80 n))) := efun
  rw [if_neg (fun h => hz ⟨h.1, h.2.le⟩)] at eref
  rw [← eref] at efun
  have io : (Fl.ofInt x80 n).Is ((n : ℤ) : ℚ) := by
    have := Fl.Is.ofInt_in (int64_in (BitVec.ofInt 64 n)); rwa [tn] at this
  have ii : x80.In ((n : ℤ) : ℚ) := by have := int64_in (BitVec.ofInt 64 n); rwa [tn] at this
  obtain ⟨f1, f2⟩ := hE k w t n _ ⟨f, ef, rfl⟩
  simp only at f1 f2
  generalize hraw : integerPowerReference E.L f n = raw at *
  by_cases t0 : t = 0#w.n
  · -- positive powers of zero
    refine int_regular hE ef ?_ (fun _ => t0) (fun _ => t0)
    rw [hraw]
    have np : (0 : ℚ) < n := by
      have : ¬ n ≤ 0 := fun h => hz ⟨t0, h⟩
      exact_mod_cast not_le.mp this
    have : ∃ s, raw = .zero s := by
      rw [eref, io.eq_num np.ne']
      rcases hf.cases with ⟨h0, _⟩ | ⟨_, s, rfl⟩
      · exact absurd (hv0.mpr t0) h0
      · exact hL.powSigns.zero_pos x80 s _ np
    obtain ⟨s, rfl⟩ := this
    have : intPowFix t n (.zero s) = .zero s := by unfold intPowFix; simp [Fl.isinf, t0]
    show integerPowerOf E.L k w t (BitVec.ofInt 64 n) = _
    rw [efun, this]
  obtain ⟨M, hM, M0, iM⟩ := dbl_max' (F := x80) (.inr rfl)
  obtain ⟨m, hm, m0, m1, im⟩ := dbl_min' (F := x80) (.inr rfl)
  have M1 : 0 < M := lt_of_lt_of_le (by positivity) M0
  by_cases hinf : raw.isinf = true
  · -- overflow
    have o : (E.flags k w t.toInt n).2 = true := f1.mpr ⟨hinf, t0⟩
    have efl : E.flags k w t.toInt n = ((E.flags k w t.toInt n).1, true) := by rw [← o]
    cases raw with
    | inf s =>
      cases s with
      | false =>
        obtain ⟨u, eu, hu, -⟩ := from_huge hL k w (Fl.Is.num M1.ne') iM
        refine int_equal ef (efun.trans (Eq.trans ?_ eu)) ?_
        · rw [← hM]; rfl
        · rw [hraw, hu M0, efl]; exact .huge _ _ (.inl rfl)
      | true =>
        obtain ⟨u, eu, -, hu, -⟩ := from_huge hL k w (Fl.Is.num M1.ne').neg (In_neg iM)
        refine int_equal ef (efun.trans (Eq.trans ?_ eu)) ?_
        · rw [← hM]; rfl
        · rw [hraw, hu (by linarith), efl]; exact .negHuge _ _ (.inr (.inl rfl))
    | _ => simp [Fl.isinf] at hinf
  have o : (E.flags k w t.toInt n).2 = false := by
    rw [← Bool.not_eq_true, f1]; exact fun h => hinf h.1
  by_cases hzr : raw.isfinite = true ∧ raw.toQ = 0
  · -- underflow
    have uu : (E.flags k w t.toInt n).1 = true := (f2 hzr).mpr t0
    have n0 : n ≠ 0 := by
      rintro rfl
      rw [show Fl.ofInt x80 0 = .zero false by decide +kernel, hL.specials.exp_zero] at eref
      rw [eref] at hzr; simp [Fl.toQ] at hzr
    have nq : ((n : ℤ) : ℚ) ≠ 0 := by exact_mod_cast n0
    have v0 : v ≠ 0 := fun h => t0 (hv0.mp h)
    obtain ⟨-, -, r3⟩ := hL.powSigns.regular x80 (.inr rfl) v _ v0 nq iv ii (.inr ⟨_, rfl⟩)
    rw [odd_rat, hvn, ← hf.eq_num v0, ← io.eq_num nq, ← eref] at r3
    have e : intPowFix t n raw = if isNeg t && odd n then DBL_MIN.neg else DBL_MIN := by
      unfold intPowFix
      rw [if_neg hinf]
      have h1 : (t != 0#w.n) = true := by simp [t0]
      rw [h1, (Fl.eq_zero_iff raw).mpr hzr]; rfl
    have es : (isNeg t && odd n) = raw.sgn := by
      rw [Bool.eq_iff_iff, r3, Bool.and_eq_true, odd_iff, isNeg_eq, isNeg_iff]
    rw [e, es] at efun
    have fin : ∀ u : T w, u.toInt = (if raw.sgn then -1 else 1) →
        Expected E.L k w (integerPowerReference E.L f n) (E.flags k w t.toInt n) u.toInt := by
      intro u hu
      rw [hraw, hu, show E.flags k w t.toInt n = (true, false) by rw [← uu, ← o]]
      exact .tiny _ _ _ (.inl rfl) hzr
    cases hs : raw.sgn
    · rw [hs] at efun
      obtain ⟨u, eu, -, -, hu, -⟩ := from_huge hL k w (Fl.Is.num m0.ne') im
      refine int_equal ef (efun.trans (Eq.trans ?_ eu)) (fin u ?_)
      · rw [← hm]; rfl
      · rw [hu m0 m1, hs]; rfl
    · rw [hs] at efun
      obtain ⟨u, eu, -, -, -, hu⟩ := from_huge hL k w (Fl.Is.num m0.ne').neg (In_neg im)
      refine int_equal ef (efun.trans (Eq.trans ?_ eu)) (fin u ?_)
      · rw [← hm]; rfl
      · rw [hu (by linarith) (by linarith), hs]; rfl
  · -- other results
    refine int_regular hE ef ?_ (fun h => absurd (hraw ▸ h) hinf) (fun h => absurd (hraw ▸ h) hzr)
    rw [hraw]
    show integerPowerOf E.L k w t (BitVec.ofInt 64 n) = _
    rw [efun]
    congr 1
    unfold intPowFix
    rw [if_neg hinf]
    have : Fl.eq raw (.zero false) = false := by
      rw [← Bool.not_eq_true, Fl.eq_zero_iff]; exact hzr
    rw [this]; rfl

theorem cases_ok : integerCases.Nodup ∧ 0 < integerCases.length ∧ integerCases.length < 2 ^ 22 := by decide

theorem cases_int64 : ∀ n ∈ integerCases, IsInt64 n := by
  unfold IsInt64; decide

/-- C89. The tests of the integer power of linear takums and of logarithmic takums of 64 bits report no
failure. -/
theorem power_passes {E : Env} (hL : E.L.Conforming) (hE : Raises E (integerPowerReference E.L)) {k : Kind} {w : W}
    (hk : k = .lin ∨ w = .w64) :
    ∃ p t, runType E (integerPowerBlock E integerCases) k w (2 ^ 22) = .ok ⟨0, p, t⟩ :=
  type_passI cases_ok.1 cases_ok.2.1 cases_ok.2.2 k w fun t n hn => power_case hL hE hk t (cases_int64 n hn)

/-- C89. Every case of the test of the root is passed, for linear takums, with every `int64_t` as index. -/
theorem root_case {E : Env} (hL : E.L.Conforming) (hE : Raises E (rootReference E.L)) (w : W) (t : T w) {n : ℤ}
    (hn : IsInt64 n) :
    PassedInt E (rootReference E.L) (fun k w t n => match k with
      | .log => root w t (BitVec.ofInt 64 n)
      | .lin => linRoot E.L w t (BitVec.ofInt 64 n)) .lin w t n := by
  have h8 := w.n_pos
  have h1 : 1 ≤ w.n := by omega
  have tn := toInt_int64 hn
  have efun : linRoot E.L w t (BitVec.ofInt 64 n) = if n = 0 ∨ (isNeg t ∧ ¬ odd n) then .ok (nar w.n) else
      toExt E.L .lin w t >>= fun f => fromExt E.L .lin w
        (if Fl.eq (E.L.pow x80 f (Fl.div x80 (.num 1) (Fl.ofInt x80 n))) (.zero false) && t != 0#w.n then
          (if isNeg t && odd n then DBL_MIN.neg else DBL_MIN)
        else E.L.pow x80 f (Fl.div x80 (.num 1) (Fl.ofInt x80 n))) := by
    unfold linRoot
    rw [tn, NAR_eq h1]
    have : BitVec.ofInt 64 n = 0#64 ↔ n = 0 :=
      ⟨fun h => by rw [← tn, h]; rfl, fun h => by rw [h]; rfl⟩
    simp only [this]; rfl
  by_cases n0 : n = 0
  · rw [if_pos (.inl n0)] at efun
    have e : ∀ a, rootReference E.L a n = .nan := fun a => if_pos n0
    obtain ⟨a, ha⟩ := toExt_ok E.L .lin w t
    refine int_regular hE ha ?_ (by simp [e, Fl.isinf]) (by simp [e, Fl.isfinite])
    rw [e, bad_from E.L .lin w rfl]; exact efun
  obtain ⟨y, ey, y0, y1, iy, yn, ya, yi⟩ := root_exponent (n := BitVec.ofInt 64 n) (by rw [tn]; exact n0)
  rw [tn] at ey yn ya yi
  have eref : ∀ a, rootReference E.L a n = E.L.pow x80 a (.num y) := by
    intro a; unfold rootReference; rw [if_neg n0, ey]
  rw [ey] at efun
  by_cases h : t = nar w.n
  · subst h
    have ha := toExt_nar hL.powers .lin w
    have e : rootReference E.L .nan n = .nan := by rw [eref]; exact hL.nans.pow_left _ _ (by simp)
    refine int_regular hE ha ?_ (by simp [e, Fl.isinf]) (by simp [e, Fl.isfinite])
    rw [e, bad_from E.L .lin w rfl]
    refine efun.trans ?_
    split
    · rfl
    · rw [ha, ok_bind, hL.nans.pow_left _ _ (by simp)]
      exact bad_from E.L .lin w rfl
  obtain ⟨f, v, ef, hf, iv, hv0, hvn, v2, v3, -⟩ := eTo_fin hL.powers .lin w h
  rw [← toExt_eTo] at ef
  rw [ef, ok_bind] at efun
  -- the reference is NaN for a negative number unless the index is 1 or -1
  have hneg : v < 0 → |n| ≠ 1 → rootReference E.L f n = .nan := by
    intro h1 h2
    rw [eref, hf.eq_num h1.ne]; exact hL.powSigns.not_int x80 v y h1 (yi h2)
  by_cases hc : n = 0 ∨ (isNeg t ∧ ¬ odd n)
  · rw [if_pos hc] at efun
    obtain ⟨c1, c2⟩ := hc.resolve_left n0
    rw [isNeg_eq, ← isNeg_iff] at c1
    rw [odd_iff] at c2
    have e := hneg (hvn.mpr c1) (by
      intro h'
      rcases (abs_eq (by norm_num : (0 : ℤ) ≤ 1)).mp h' with h' | h' <;> omega)
    refine int_regular hE ef ?_ (by simp [e, Fl.isinf]) (by simp [e, Fl.isfinite])
    rw [e, bad_from E.L .lin w rfl]; exact efun
  rw [if_neg hc, ← eref] at efun
  by_cases t0 : t = 0#w.n
  · refine int_regular hE ef (efun.trans ?_) (fun _ => t0) (fun _ => t0)
    have : (t != 0#w.n) = false := by simp [t0]
    rw [this, Bool.and_false, if_neg (by decide)]
  · have vne : v ≠ 0 := fun h => t0 (hv0.mp h)
    have key : (rootReference E.L f n).isinf = false ∧ Fl.eq (rootReference E.L f n) (.zero false) = false := by
      by_cases hb : v < 0 ∧ |n| ≠ 1
      · rw [hneg hb.1 hb.2]; exact ⟨rfl, rfl⟩
      · have hp : 0 < v ∨ |y| = 1 := by
          rcases lt_or_gt_of_ne vne with h | h
          · right; rw [ya]; by_contra hh; exact hb ⟨h, hh⟩
          · exact .inl h
        obtain ⟨z, ez, z0⟩ := hL.powSigns.root v y (v3 t0) v2 iv y0 y1 iy hp
        rw [eref, hf.eq_num vne, ez]
        exact ⟨rfl, by simp [Fl.eq, Fl.toQ, z0]⟩
    refine int_regular hE ef (efun.trans ?_) (fun h => by rw [key.1] at h; cases h)
      (fun h => by rw [(Fl.eq_zero_iff _).mpr h] at key; cases key.2)
    rw [key.2, Bool.false_and, if_neg (by decide)]

/-- C89. The tests of the root of linear takums report no failure, whatever list of integers they use. -/
theorem root_passes {E : Env} (hL : E.L.Conforming) (hE : Raises E (rootReference E.L)) (w : W) {cases : List ℤ}
    (hc : cases.Nodup) (h0 : 0 < cases.length) (hl : cases.length < 2 ^ 22) (hi : ∀ n ∈ cases, IsInt64 n) :
    ∃ p t, runType E (rootBlock E cases) .lin w (2 ^ 22) = .ok ⟨0, p, t⟩ :=
  type_passI hc h0 hl .lin w fun t n hn => root_case hL hE w t (hi n hn)

/-- C89. The tests of the root cannot notice that a negative linear takum has no odd root other than the
first one (C52): they pass with the additional index 3, although the cube root of -8 is NaR and -2 is a
takum. -/
theorem root_unnoticed {E : Env} (hL : E.L.Conforming) (hE : Raises E (rootReference E.L)) (w : W) :
    (∃ p t, runType E (rootBlock E (3 :: integerCases)) .lin w (2 ^ 22) = .ok ⟨0, p, t⟩) ∧
      linRoot E.L .w16 0xb000#16 3#64 = .ok (nar 16) ∧ linVal (0xb000#16 : BitVec 16) = some (-8) ∧
      linVal (0xb800#16 : BitVec 16) = some (-2) :=
  have h := lin_root_refuted E.L hL.nans hL.powers hL.specials hL.powSigns
  ⟨root_passes hL hE w (by decide) (by decide) (by decide) (by unfold IsInt64; decide), h.1, h.2.1, h.2.2.1⟩

/-! ## Examples -/

/-- An environment in which the flags are those of a conforming `powl`. -/
def raising (L : Libm) (ref : Fl → ℤ → Fl) : Env :=
  ⟨L, fun _ _ _ => 0, fun k w a n => match toExt L k w (BitVec.ofInt w.n a) with
    | .ok f => (Fl.eq (ref f n) (.zero false) && decide (a ≠ 0), (ref f n).isinf && decide (a ≠ 0))
    | .error _ => (false, false)⟩

theorem raising_raises (L : Libm) (ref : Fl → ℤ → Fl) : Raises (raising L ref) ref := by
  rintro k w t n raw ⟨a, ha, rfl⟩
  have e : (raising L ref).flags k w t.toInt n =
      (Fl.eq (ref a n) (.zero false) && decide (t.toInt ≠ 0), (ref a n).isinf && decide (t.toInt ≠ 0)) := by
    have ha' : toExt L k w (BitVec.ofInt w.n t.toInt) = .ok a := by rw [BitVec.ofInt_toInt]; exact ha
    show (match toExt L k w (BitVec.ofInt w.n t.toInt) with | .ok f => _ | .error _ => _) = _
    rw [ha']
  have z : t.toInt ≠ 0 ↔ t ≠ 0#w.n := by
    rw [not_iff_not]
    exact ⟨fun h => BitVec.eq_of_toInt_eq (by rw [h]; simp), fun h => by rw [h]; simp⟩
  rw [e]
  constructor
  · rw [Bool.and_eq_true, decide_eq_true_iff, z]
  · intro h
    simp only
    rw [(Fl.eq_zero_iff _).mpr h, Bool.true_and, decide_eq_true_iff, z]

example : ∃ p t, runType (raising ideal (integerPowerReference ideal))
    (integerPowerBlock (raising ideal (integerPowerReference ideal)) integerCases) .log .w64 (2 ^ 22) = .ok ⟨0, p, t⟩ :=
  power_passes ideal_conforming (raising_raises _ _) (.inr rfl)

example : ∃ p t, runType (raising ideal (rootReference ideal))
    (rootBlock (raising ideal (rootReference ideal)) [2, 3, 5]) .lin .w32 (2 ^ 22) = .ok ⟨0, p, t⟩ :=
  root_passes ideal_conforming (raising_raises _ _) .w32 (by decide) (by decide) (by decide) (by unfold IsInt64; decide)

end Takum.Test
