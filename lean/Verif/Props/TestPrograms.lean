import Verif.Lemmas.TestBlocks
import Verif.Lemmas.Points

/-!
# C84: test programs that always pass

The exit status of test programs of the repository, for every value of `rand()`: proved from theorems
about all values, not from the samples the programs draw.
-/

namespace Takum.Test
open Takum Spec

/-- C84: the codec test exits with 0. -/
theorem codec_passes (E : Env) : codecMain E = .ok 0 := by
  refine trip_pass fun k w g hg t => ?_
  cases k
  · cases hg
    obtain ⟨l, e1, e2⟩ := encoder_decoder w t
    simp only
    rw [e1, ok_bind, e2]
  · obtain ⟨h1, h2⟩ := lin_roundtrip w t
    cases w <;> cases hg
    · exact h2 (by decide)
    · exact h2 (by decide)
    · exact h2 (by decide)
    · exact h1

/-- C84: the conversion test exits with 0 if `pow` and `log` have an error of at most two units in the
last place and `exp2` is exact at ±255. -/
theorem conversion_passes (E₁ E₂ E₃ : Env) (hP₁ : E₁.L.Powers) (hA₁ : E₁.L.Accurate)
    (hP₂ : E₂.L.Powers) (hA₂ : E₂.L.Accurate) (hx : E₃.L.exp2 b64 (.num 255) = .num ((2 : ℚ) ^ (255 : ℤ)))
    (hy : E₃.L.exp2 b64 (.num (-255)) = .num ((2 : ℚ) ^ (-255 : ℤ))) :
    conversionMain E₁ E₂ E₃ = .ok 0 := by
  have h1 : runBlock E₁ (.roundtrip (float64Trip E₁.L)) = .ok 0 := by
    refine trip_pass fun k w g hg t => ?_
    by_cases hw : w = .w64
    · subst hw; cases k <;> cases hg
    · cases k
      · have hg' : g = (fun t => do logFrom E₁.L .f64 w (← logTo E₁.L .f64 w t)) := by
          cases w <;> first | exact absurd rfl hw | exact (Option.some.inj hg).symm
        obtain ⟨f, e1, e2⟩ := log_round_trip E₁.L hP₁ hA₁ .f64 w (.inr ⟨rfl, hw⟩) t
        rw [hg']
        simp only
        rw [e1, ok_bind, e2]
      · have hg' : g = (fun t => do linFrom .f64 w (← linTo .f64 w t)) := by
          cases w <;> first | exact absurd rfl hw | exact (Option.some.inj hg).symm
        rw [hg']
        exact (lin_roundtrip w t).2 hw
  have h2 : runBlock E₂ (.roundtrip (extendedTrip E₂.L)) = .ok 0 := by
    refine trip_pass fun k w g hg t => ?_
    cases k
    · cases hg
      obtain ⟨f, e1, e2⟩ := log_round_trip E₂.L hP₂ hA₂ .ext w (.inl rfl) t
      simp only
      rw [e1, ok_bind, e2]
    · cases hg
      exact (lin_roundtrip w t).1
  have h3 : runBlock E₃ (.roundtrip (fullTrip E₃.L)) = .ok 0 := by
    refine trip_pass fun k w g hg t => ?_
    have : k = .lin ∧ w = .w64 := by
      cases k <;> cases w <;> first | exact ⟨rfl, rfl⟩ | cases hg
    obtain ⟨rfl, rfl⟩ := this
    cases hg
    unfold float64Full
    rw [hx, hy]
    simp only
    by_cases hc : (!(ofBits64 t).isfinite || Fl.le (.num ((2 : ℚ) ^ (255 : ℤ))) (ofBits64 t).abs ||
        Fl.le (ofBits64 t).abs (.num ((2 : ℚ) ^ (-255 : ℤ)))) = true
    · rw [if_pos hc]
    · rw [if_neg hc]
      simp only [Bool.or_eq_true, not_or, Bool.not_eq_true, Bool.not_eq_false'] at hc
      obtain ⟨⟨c1, c2⟩, c3⟩ := hc
      have habs : ∀ f : Fl, f.isfinite = true → f.abs.toQ = |f.toQ| ∧ f.abs.isfinite = true := by
        intro f hf
        cases f with
        | nan => cases hf
        | inf s => cases hf
        | zero s => simp [Fl.abs, Fl.toQ, Fl.isfinite]
        | num q => simp [Fl.abs, Fl.toQ, Fl.isfinite]
      obtain ⟨a1, a2⟩ := habs _ c1
      have hle : ∀ f g : Fl, f.isfinite = true → g.isfinite = true → (Fl.le f g = false → g.toQ < f.toQ) := by
        intro f g hf hg h
        unfold Fl.le at h
        simp only [Bool.or_eq_false_iff] at h
        obtain ⟨h1, h2⟩ := h
        have h1' : decide (f.toQ < g.toQ) = false := by
          cases f <;> cases g <;> first | exact absurd hf Bool.false_ne_true | exact absurd hg Bool.false_ne_true | exact h1
        have h2' : decide (f.toQ = g.toQ) = false := by
          cases f <;> cases g <;> first | exact absurd hf Bool.false_ne_true | exact absurd hg Bool.false_ne_true | exact h2
        rw [decide_eq_false_iff_not] at h1' h2'
        exact lt_of_le_of_ne (not_lt.mp h1') (Ne.symm h2')
      have d2 := hle _ _ rfl a2 c2
      have d3 := hle _ _ a2 rfl c3
      rw [a1] at d2 d3
      rcases ofBits64_cases t with h | h | ⟨h, h'⟩
      · rw [c1] at h; cases h
      · exact absurd d3 (not_lt.mpr h)
      · have ht := float64_roundtrip _ h c1 d3 d2
        have e : (do linTo .f64 .w64 (← linFrom .f64 .w64 (ofBits64 t))) = .ok (ofBits64 t) := ht
        obtain ⟨u, hu⟩ := linFrom_ok .f64 .w64 (ofBits64 t)
        rw [hu, ok_bind] at e
        rw [hu, ok_bind, e, ok_bind, h']
        rfl
  unfold conversionMain
  simp only [h1, h2, h3, R_ok_bind]
  rfl

/-- C84: the precision test exits with 0. -/
theorem precision_passes (E : Env) (hP : E.L.Powers) (hS : E.L.Specials) (hA : E.L.Accurate) :
    precisionMain E = .ok 0 := by
  refine block_pass (blk := .uint8 (precisionReference E.L) (fun _ => precision)) trivial fun k w t => ?_
  refine (case_byte t _).2.mp ?_
  have hbad : ¬ Regular t → precision w t = .ok (if w.n < 12 then 0 else w.n - 12) := by
    intro h
    rw [(precision_value w t).2.1 h]
    congr 1
    split_ifs <;> omega
  rcases takum_cases t with rfl | rfl | ht
  · exact ⟨_, _, toExt_zero hP k w, rfl, hbad fun h => h.1 rfl⟩
  · exact ⟨_, _, toExt_nar hP k w, rfl, hbad fun h => h.2 rfl⟩
  · obtain ⟨v, h0, e, -⟩ := toExt_neg hP hS k w ht
    exact ⟨_, _, e, precisionReference_eq h0 (trip_ext hP hA e), precision_spec w t⟩

/-- The case of the sign test for each takum. -/
theorem sign_case {L : Libm} (hP : L.Powers) (hS : L.Specials) (hA : L.Accurate) (k : Kind) (w : W)
    (t : T w) : ∃ a u, toExt L k w t = .ok a ∧ signC w t = .ok u ∧
      fromExt L k w (signReference a) = .ok u := by
  have h8 := w.n_pos
  have h5 : 5 ≤ w.n := by omega
  rcases takum_cases t with rfl | rfl | ht
  · refine ⟨_, 0#w.n, toExt_zero hP k w, ?_, fromExt_zero L k w false⟩
    show signC w _ = _
    rw [signC_eq]; cases w <;> rfl
  · refine ⟨_, nar w.n, toExt_nar hP k w, ?_, fromExt_nonfinite L k w rfl⟩
    show signC w _ = _
    rw [signC_eq]; cases w <;> rfl
  · obtain ⟨v, h0, e, -, hs⟩ := toExt_neg hP hS k w ht
    have hneg : isNeg t = t.msb := isNeg_eq t
    have hr0 : Fl.eq (.num v) (.zero false) = false := by
      show decide (v = 0) = false
      rw [decide_eq_false h0]
    have hlt : Fl.lt (.zero false) (.num v) = decide (0 < v) := rfl
    have hsr : signReference (.num v) = if 0 < v then .num 1 else .num (-1) := by
      unfold signReference
      rw [hr0, hlt]
      by_cases h : 0 < v <;> simp [Fl.isfinite, h]
    have hsg : signC w t = .ok (if t.msb then -ONE w else ONE w) := by
      rw [signC_eq]
      unfold sign
      rw [NAR_eq (by omega), if_neg ht.2, hneg]
      cases hm : t.msb
      · have hp : isPos t = true := by
          unfold isPos
          rw [BitVec.slt_eq_decide]
          have h1 : ¬ t.toInt < 0 := fun h => by rw [toInt_neg_iff, hm] at h; cases h
          have h2 : t.toInt ≠ 0 := fun h => ht.1 (BitVec.eq_of_toInt_eq (by rw [h]; simp))
          simp; omega
        simp [hp]
      · simp
    obtain ⟨v1, -, f1, f2, -⟩ := toExt_neg hP hS k w (ONE_facts w).2.2.1
    have : v1 = 1 := by
      rw [toExt_one hS] at f1; injection f1 with f1; injection f1 with f1; exact f1.symm
    subst this
    refine ⟨_, _, e, hsg, ?_⟩
    rw [hsr]
    cases hm : t.msb
    · have : 0 < v := lt_of_le_of_ne (not_lt.mp fun h => by rw [hs.mp h] at hm; cases hm) (Ne.symm h0)
      rw [if_pos this]
      exact trip_ext hP hA f1
    · have : ¬ 0 < v := not_lt.mpr (hs.mpr hm).le
      rw [if_neg this]
      exact trip_ext hP hA f2

/-- C84: the sign test exits with 0 if no exception flags are set. -/
theorem sign_passes (E : Env) (hP : E.L.Powers) (hS : E.L.Specials) (hA : E.L.Accurate)
    (hfl : ∀ k w a b, E.flags k w a b = (false, false)) : signMain E = .ok 0 :=
  block_pass (blk := .unary signReference (fun _ => signC)) trivial fun k w t => by
    obtain ⟨a, u, h1, h2, h3⟩ := sign_case hP hS hA k w t
    exact (case_unary t _).2.mp (unary_exact (hfl _ _ _ _) h1 h2 h3)

/-- The case of the absolute value test for each takum but NaR. -/
theorem absolute_case (E : Env) (hP : E.L.Powers) (hS : E.L.Specials) (hA : E.L.Accurate)
    (hfl : ∀ k w a b, E.flags k w a b = (false, false)) (k : Kind) (w : W) {t : T w} (hn : t ≠ nar w.n) :
    PassedUnary E absoluteReference (fun _ => absolute) k w t := by
  have hab := absolute_spec hn
  rcases takum_cases t with rfl | h | ht
  · refine unary_exact (hfl _ _ _ _) (toExt_zero hP k w) (u := 0#w.n) ?_ (fromExt_zero E.L k w false)
    show absolute w _ = _
    rw [hab]; simp
  · exact absurd h hn
  · obtain ⟨v, h0, e, e', hs⟩ := toExt_neg hP hS k w ht
    refine unary_exact (hfl _ _ _ _) e hab ?_
    have hlt : Fl.lt (.num v) (.zero false) = decide (v < 0) := rfl
    unfold absoluteReference
    rw [hlt]
    cases hm : t.msb
    · have : ¬ v < 0 := fun h => by rw [hs.mp h] at hm; cases hm
      simp only [Fl.isfinite, this, decide_false, Bool.false_eq_true, if_false, if_true]
      exact trip_ext hP hA e
    · have : v < 0 := hs.mpr hm
      simp only [Fl.isfinite, this, decide_true, if_true]
      exact trip_ext hP hA e'

/-- C84: the test of the absolute value passes for 8 and 16 bits if no exception flags are set, and for
32 and 64 bits it passes or is undefined. -/
theorem absolute_passes_partial (E : Env) (hP : E.L.Powers) (hS : E.L.Specials) (hA : E.L.Accurate)
    (hfl : ∀ k w a b, E.flags k w a b = (false, false)) (k : Kind) (w : W) :
    let r := runType E (.unary absoluteReference (fun _ => absolute)) k w (2 ^ 22)
    (∃ p t, r = .ok ⟨0, p, t⟩) ∨ (w = .w32 ∨ w = .w64) ∧ ∃ u, r = .error (.ub u) := by
  intro r
  by_cases hw : w = .w32 ∨ w = .w64
  · have hc : 2 ^ 22 < parCount w := by rcases hw with rfl | rfl <;> decide
    obtain ⟨x, -, h1, h2⟩ : ∃ x : Fin (2 ^ 22) → T w, True ∧ Reports r (2 ^ 22)
        (fun i => DefinedUnary E absoluteReference (fun _ => absolute) k w (x i))
        (fun i => PassedUnary E absoluteReference (fun _ => absolute) k w (x i)) :=
      ⟨_, trivial, random_report (blk := .unary absoluteReference (fun _ => absolute)) trivial
        (by norm_num) (by norm_num) hc (DefinedUnary E absoluteReference (fun _ => absolute) k w)
        (PassedUnary E absoluteReference (fun _ => absolute) k w) (fun t => (case_unary t _).1)
        (fun t => (case_unary t _).2)⟩
    by_cases hd : ∀ i, DefinedUnary E absoluteReference (fun _ => absolute) k w (x i)
    · left
      refine status_zero ⟨h1, h2⟩ hd fun i => absolute_case E hP hS hA hfl k w ?_
      intro hx
      obtain ⟨raw, -, u, r, hu, -⟩ := hd i
      rw [hx] at hu
      rcases hw with rfl | rfl
      · cases hu.symm.trans (show absolute .w32 (nar W.w32.n) = _ from absolute_nar_refuted.1)
      · cases hu.symm.trans (show absolute .w64 (nar W.w64.n) = _ from absolute_nar_refuted.2)
    · right
      push Not at hd
      exact ⟨hw, h2 hd⟩
  · left
    refine type_pass (blk := .unary absoluteReference (fun _ => absolute)) trivial k w fun t =>
      (case_unary t _).2.mp ?_
    by_cases hn : t = nar w.n
    · subst hn
      refine unary_exact (hfl _ _ _ _) (toExt_nar hP k w) (u := nar w.n) ?_ (fromExt_nonfinite E.L k w rfl)
      cases w
      · exact absolute_nar.1
      · exact absolute_nar.2
      · exact absurd (.inl rfl) hw
      · exact absurd (.inr rfl) hw
    · exact absolute_case E hP hS hA hfl k w hn

/-- C84 is false for the absolute value: if `rand()` returns 1 first, the second value that is checked
for 32 and 64 bits is NaR, and the program has undefined behaviour. -/
theorem absolute_passes_refuted (E : Env) (k : Kind) (w : W) (hw : w = .w32 ∨ w = .w64)
    (h : E.rand k w 0 = 1) :
    ∃ u, runType E (.unary absoluteReference (fun _ => absolute)) k w (2 ^ 22) = .error (.ub u) := by
  have hc : 2 ^ 22 < parCount w := by rcases hw with rfl | rfl <;> decide
  have hr := random_report (E := E) (k := k) (blk := .unary absoluteReference (fun _ => absolute)) trivial
    (by norm_num) (by norm_num) hc (DefinedUnary E absoluteReference (fun _ => absolute) k w)
    (PassedUnary E absoluteReference (fun _ => absolute) k w) (fun t => (case_unary t _).1)
    (fun t => (case_unary t _).2)
  refine hr.2 ⟨⟨1, by norm_num⟩, ?_⟩
  have hx : xs (E.rand k w) w 1 = nar w.n := by
    have hne : BitVec.ofInt w.n (E.rand k w 0) ≠ 0#w.n := by rw [h]; rcases hw with rfl | rfl <;> decide
    have := xs_seed hne 0
    rw [this, h]
    rcases hw with rfl | rfl <;> decide
  show ¬ DefinedUnary E _ _ k w (xs (E.rand k w) w 1)
  rw [hx]
  rintro ⟨raw, -, u, r, hu, -⟩
  rcases hw with rfl | rfl
  · cases hu.symm.trans (show absolute .w32 (nar W.w32.n) = _ from absolute_nar_refuted.1)
  · cases hu.symm.trans (show absolute .w64 (nar W.w64.n) = _ from absolute_nar_refuted.2)

/-! ## Examples -/

/-- The hypotheses are met by the correctly rounded library without flags, with any numbers. -/
example (rand : Kind → W → ℕ → ℤ) : codecMain ⟨ideal, rand, fun _ _ _ _ => (false, false)⟩ = .ok 0 ∧
    signMain ⟨ideal, rand, fun _ _ _ _ => (false, false)⟩ = .ok 0 ∧
    precisionMain ⟨ideal, rand, fun _ _ _ _ => (true, false)⟩ = .ok 0 :=
  ⟨codec_passes _, sign_passes _ ideal_powers ideal_specials ideal_accurate fun _ _ _ _ => rfl,
    precision_passes _ ideal_powers ideal_specials ideal_accurate⟩

example (E : Env) (hL : E.L = ideal) : conversionMain E E E = .ok 0 := by
  have hp : ∀ e : ℤ, -1000 ≤ e → e ≤ 1000 → b64.In ((2 : ℚ) ^ e) := fun e h1 h2 =>
    ⟨Fmt.Rep.zpow (by decide) (by show -1074 ≤ e; omega), by
      rw [abs_of_pos (zpow_pos (by norm_num) e)]
      exact zpow_lt_zpow_right₀ (by norm_num) (by show e < 1024; omega)⟩
  have h2 : ∀ e : ℤ, -1000 ≤ e → e ≤ 1000 → ideal.exp2 b64 (.num e) = .num ((2 : ℚ) ^ e) := by
    intro e h1 h2
    show rnd b64 ((2 : ℝ) ^ (((e : ℚ) : ℝ))) = _
    rw [← rnd_in' (.inl rfl) (zpow_ne_zero e (by norm_num)) (hp e h1 h2)]
    congr 1
    push_cast
    exact Real.rpow_intCast 2 e
  exact conversion_passes E E E (hL ▸ ideal_powers) (hL ▸ ideal_accurate) (hL ▸ ideal_powers)
    (hL ▸ ideal_accurate) (by rw [hL]; exact_mod_cast h2 255 (by norm_num) (by norm_num))
    (by rw [hL]; exact_mod_cast h2 (-255) (by norm_num) (by norm_num))

/-- Both cases of the 32-bit test of the absolute value occur: with `rand()` 1 it is undefined. -/
example : ∃ u, runType ⟨ideal, fun _ _ _ => 1, fun _ _ _ _ => (false, false)⟩
    (.unary absoluteReference (fun _ => absolute)) .log .w32 (2 ^ 22) = .error (.ub u) :=
  absolute_passes_refuted _ _ _ (.inl rfl) rfl

end Takum.Test
