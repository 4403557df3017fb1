import Verif.Props.TestPrograms

/-!
# C85: what the comparison of the test harness accepts

The tests compare the output with the expected takum as integers, up to one unit.
-/

namespace Takum.Test
open Takum Spec

/-- The takum `u` is the expected one of a case, exactly. -/
def ExpectsUnary (E : Env) (ref : Fl → Fl) (k : Kind) (w : W) (t u : T w) : Prop :=
  ∃ raw, RefIs E.L k w t ref raw ∧ Expected E.L k w raw (E.flags k w t.toInt 0) u.toInt

theorem expects_unique {E : Env} {ref : Fl → Fl} {k : Kind} {w : W} {t : T w} :
    ∃! u, ExpectsUnary E ref k w t u := by
  obtain ⟨a, ha⟩ := toExt_ok E.L k w t
  obtain ⟨r, -, hr, h⟩ := saturate_spec E.L k w (ref a) (E.flags k w t.toInt 0)
  refine ⟨BitVec.ofInt w.n r, ⟨_, ⟨a, ha, rfl⟩, (h _).mpr (toInt_ofInt_W hr)⟩, ?_⟩
  rintro u ⟨raw, ⟨a', ha', rfl⟩, hu⟩
  rw [ha] at ha'; cases ha'
  exact BitVec.eq_of_toInt_eq (((h _).mp hu).trans (toInt_ofInt_W hr).symm)

/-- C85: a case is passed exactly if the output is the expected takum or a neighbour of it as integer;
in 64 bits only if the expected takum is not the largest or the output is equal to it. -/
theorem accepted {E : Env} {ref : Fl → Fl} {f : Kind → (w : W) → T w → C (T w)} {k : Kind} {w : W}
    {t u v : T w} (hu : ExpectsUnary E ref k w t u) (hv : f k w t = .ok v) :
    PassedUnary E ref f k w t ↔ v = u ∨
      (v.toInt = u.toInt + 1 ∨ v.toInt = u.toInt - 1) ∧ (w = .w64 → u.toInt ≠ 2 ^ 63 - 1) := by
  obtain ⟨raw, ⟨a, ha, rfl⟩, hr⟩ := hu
  obtain ⟨r, -, -, h⟩ := saturate_spec E.L k w (ref a) (E.flags k w t.toInt 0)
  have lo : w = .w64 → -2 ^ 63 ≤ v.toInt := fun hw => by
    have := (toInt_InW v).1; subst hw; norm_num [W.n] at this ⊢; exact this
  have hi : w = .w64 → v.toInt ≤ 2 ^ 63 - 1 := fun hw => by
    have := (toInt_InW v).2; subst hw; norm_num [W.n] at this ⊢; omega
  constructor
  · rintro ⟨_, ⟨a', ha', rfl⟩, v', r', hv', hr', hc, hd⟩
    rw [ha] at ha'; cases ha'
    rw [hv] at hv'; cases hv'
    have e : r' = u.toInt := by rw [(h r').mp hr', (h _).mp hr]
    subst e
    by_cases hvu : v.toInt = u.toInt
    · exact .inl (BitVec.eq_of_toInt_eq hvu)
    · refine .inr ⟨?_, fun hw hm => (hc hw).1 ⟨hm, hvu⟩⟩
      rw [abs_le] at hd; omega
  · rintro (rfl | ⟨hd, hm⟩)
    · exact ⟨_, ⟨a, ha, rfl⟩, _, _, hv, hr, fun _ => ⟨fun g => g.2 rfl, fun g => g.2.1 rfl⟩, by simp⟩
    · refine ⟨_, ⟨a, ha, rfl⟩, v, _, hv, hr, fun hw => ⟨fun g => hm hw g.1, fun g => ?_⟩, ?_⟩
      · have := lo hw; omega
      · rw [abs_le]; omega

/-- C85: zero is accepted where the smallest positive or the largest negative number is expected. -/
theorem zero_accepted {E : Env} {ref : Fl → Fl} {f : Kind → (w : W) → T w → C (T w)} {k : Kind} {w : W}
    {t u : T w} (hu : ExpectsUnary E ref k w t u) (h : u.toInt = 1 ∨ u.toInt = -1)
    (hf : f k w t = .ok 0#w.n) : PassedUnary E ref f k w t := by
  refine (accepted hu hf).mpr (.inr ⟨?_, fun _ => by omega⟩)
  simp only [BitVec.toInt_zero]
  omega

/-- C85: NaR is accepted where the smallest number, −maximum, is expected. -/
theorem nar_accepted {E : Env} {ref : Fl → Fl} {f : Kind → (w : W) → T w → C (T w)} {k : Kind} {w : W}
    {t u : T w} (hu : ExpectsUnary E ref k w t u) (h : u.toInt = -(2 ^ (w.n - 1) - 1))
    (hf : f k w t = .ok (nar w.n)) : PassedUnary E ref f k w t := by
  have hn : (nar w.n).toInt = -2 ^ (w.n - 1) := by cases w <;> rfl
  refine (accepted hu hf).mpr (.inr ⟨.inr (by rw [hn, h]; ring), fun hw => ?_⟩)
  subst hw
  rw [h]; decide

/-- C85: in 64 bits a case is undefined exactly if the function is or if the output differs from an
expected largest number, or from an expected NaR by more than one unit. -/
theorem undefined_64 {E : Env} {ref : Fl → Fl} {f : Kind → (w : W) → T w → C (T w)} {k : Kind}
    {t u v : T .w64} (hu : ExpectsUnary E ref k .w64 t u) (hv : f k .w64 t = .ok v) :
    (∃ e, checkCase E (.unary ref f) t.toInt 0 k .w64 = .error (.ub e)) ↔
      u.toInt = 2 ^ 63 - 1 ∧ v ≠ u ∨ u = nar 64 ∧ v ≠ u ∧ v.toInt ≠ u.toInt + 1 := by
  obtain ⟨raw, ⟨a, ha, rfl⟩, hr⟩ := hu
  obtain ⟨r, hs, hin, h⟩ := saturate_spec E.L k .w64 (ref a) (E.flags k .w64 t.toInt 0)
  have er : r = u.toInt := ((h _).mp hr).symm
  subst er
  have e : checkCase E (.unary ref f) t.toInt 0 k .w64 = R.of (deviates v.toInt u.toInt) := by
    have e1 : checkCase E (.unary ref f) t.toInt 0 k .w64 =
        (R.of (saturate E.L k .w64 (ref a) (E.flags k .w64 t.toInt 0)) >>= fun r =>
          R.of (f k .w64 t) >>= fun u => R.of (deviates u.toInt r)) := by
      simp only [checkCase, evaluateReference, parTo_eq, ha, BitVec.ofInt_toInt]; rfl
    rw [e1, hs, hv]; rfl
  have d := (deviates_any (toInt_InW v) (toInt_InW u)).2
  have hne : v ≠ u ↔ v.toInt ≠ u.toInt := not_congr ⟨fun h => by rw [h], BitVec.eq_of_toInt_eq⟩
  have hnr : u = nar 64 ↔ u.toInt = -2 ^ 63 :=
    ⟨fun h => by rw [h]; rfl, fun h => BitVec.eq_of_toInt_eq (by rw [h]; rfl)⟩
  rw [e, hne, hnr]
  cases hd : deviates v.toInt u.toInt with
  | ok c =>
    rw [hd] at d
    have := d.mp ⟨c, rfl⟩
    refine ⟨fun ⟨_, g⟩ => (by cases g), fun g => ?_⟩
    rcases g with g | g
    · exact absurd g this.1
    · exact absurd g this.2
  | error e' =>
    rw [hd] at d
    refine ⟨fun _ => ?_, fun _ => ⟨e', rfl⟩⟩
    by_contra hc
    rw [not_or] at hc
    obtain ⟨c, hc⟩ := d.mpr hc
    cases hc

/-- C85: the harness divides by zero for a block without integer test cases. -/
theorem no_cases (E : Env) (ref : Fl → ℤ → Fl) (f : Kind → (w : W) → T w → ℤ → C (T w)) (k : Kind)
    (w : W) (maximum : ℕ) : runType E (.takumInt ref f []) k w maximum = .error .divZero := rfl

/-- A wrong sign function: the number after 1 for each positive number. -/
def wrongSign (_ : Kind) (w : W) (t : T w) : C (T w) :=
  if 0 < t.toInt then .ok (ONE w + 1) else signC w t

/-- C85: the sign test exits with 0 for a function that is wrong for each positive number. -/
theorem wrong_sign_passes (E : Env) (hP : E.L.Powers) (hS : E.L.Specials) (hA : E.L.Accurate)
    (hfl : ∀ k w a b, E.flags k w a b = (false, false)) :
    runBlock E (.unary signReference wrongSign) = .ok 0 ∧
    ∀ k w (t : T w), 0 < t.toInt → wrongSign k w t ≠ signC w t := by
  have hs : ∀ w (t : T w), 0 < t.toInt → signC w t = .ok (ONE w) := by
    intro w t ht
    have h1 : t.msb = false := by
      by_contra h
      have := (toInt_neg_iff t).mpr (by simpa using h)
      omega
    have h2 : t ≠ nar w.n := fun h => by
      rw [h, nar_msb (by have := w.n_pos; omega)] at h1; cases h1
    rw [signC_eq]
    unfold sign
    rw [NAR_eq (by have := w.n_pos; omega), if_neg h2, isNeg_eq, h1]
    have : isPos t = true := by
      unfold isPos
      rw [BitVec.slt_eq_decide]; simpa using ht
    simp [this]
  have hone : ∀ w, (ONE w + 1).toInt = (ONE w).toInt + 1 ∧ (w = .w64 → (ONE w).toInt ≠ 2 ^ 63 - 1) := by
    intro w; cases w <;> decide
  refine ⟨block_pass (blk := .unary signReference wrongSign) trivial fun k w t =>
    (case_unary t _).2.mp ?_, fun k w t ht => ?_⟩
  · obtain ⟨a, u, h1, h2, h3⟩ := sign_case hP hS hA k w t
    have hx : ExpectsUnary E signReference k w t u :=
      ⟨_, ⟨a, h1, rfl⟩, by rw [hfl]; exact .regular _ _ _ (.inl rfl) h3⟩
    by_cases ht : 0 < t.toInt
    · rw [hs w t ht] at h2
      cases h2
      refine (accepted (f := wrongSign) hx (if_pos ht)).mpr (.inr ⟨.inl (hone w).1, (hone w).2⟩)
    · exact (accepted (f := wrongSign) hx ((if_neg ht).trans h2)).mpr (.inl rfl)
  · rw [hs w t ht]
    unfold wrongSign
    rw [if_pos ht]
    intro h
    have h' : ONE w + 1 = ONE w := Except.ok.inj h
    have := (hone w).1
    rw [h'] at this
    omega

/-! ## Examples -/

/-- The test of the identity with the ideal library: for the smallest number the expected takum is 1,
so that 0 is accepted, and for −maximum NaR is; in 64 bits a wrong output for the largest number is
undefined. -/
theorem identity_expects (E : Env) (hL : E.L = ideal) (hfl : ∀ k w a b, E.flags k w a b = (false, false))
    (k : Kind) (w : W) (t : T w) : ExpectsUnary E id k w t t := by
  obtain ⟨a, ha⟩ := toExt_ok E.L k w t
  refine ⟨_, ⟨a, ha, rfl⟩, ?_⟩
  rw [hfl]
  exact .regular _ _ _ (.inl rfl) (trip_ext (hL ▸ ideal_powers) (hL ▸ ideal_accurate) ha)

example (E : Env) (hL : E.L = ideal) (hfl : ∀ k w a b, E.flags k w a b = (false, false)) (k : Kind) :
    PassedUnary E id (fun _ w _ => .ok 0#w.n) k .w16 1#16 ∧
    PassedUnary E id (fun _ w _ => .ok (nar w.n)) k .w16 0x8001#16 ∧
    (∃ e, checkCase E (.unary id (fun _ w _ => .ok 0#w.n)) (0x7fffffffffffffff#64).toInt 0 k .w64 =
      .error (.ub e)) :=
  ⟨zero_accepted (identity_expects E hL hfl k .w16 _) (.inl rfl) rfl,
    nar_accepted (identity_expects E hL hfl k .w16 _) rfl rfl,
    (undefined_64 (identity_expects E hL hfl k .w64 _) rfl).mpr (.inl ⟨rfl, by decide⟩)⟩

example (rand : Kind → W → ℕ → ℤ) :
    runBlock ⟨ideal, rand, fun _ _ _ _ => (false, false)⟩ (.unary signReference wrongSign) = .ok 0 ∧
    wrongSign .log .w8 5#8 = .ok 0x41#8 ∧ signC .w8 5#8 = .ok 0x40#8 :=
  ⟨(wrong_sign_passes _ ideal_powers ideal_specials ideal_accurate fun _ _ _ _ => rfl).1, rfl, rfl⟩

end Takum.Test
