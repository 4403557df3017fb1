import Verif.Model.TestInt
import Verif.Lemmas.TestFuns
import Verif.Lemmas.Powers
import Verif.Lemmas.ElemExp
import Verif.Lemmas.ConvAcc

/-!
# Test programs of the integer power and the root: lemmas
-/

namespace Takum.Test
open Takum Spec

/-! ## Blocks of a takum and an integer -/

theorem type_passI {E : Env} {ref : Fl → ℤ → Fl} {f : Kind → (w : W) → T w → ℤ → C (T w)} {cases : List ℤ}
    (hn : cases.Nodup) (hc : 0 < cases.length) (hl : cases.length < 2 ^ 22) (k : Kind) (w : W)
    (h : ∀ (t : T w), ∀ n ∈ cases, PassedInt E ref f k w t n) :
    ∃ p t, runType E (.takumInt ref f cases) k w (2 ^ 22) = .ok ⟨0, p, t⟩ := by
  have g : ∀ (t : T w), ∀ n ∈ cases, checkCase E (.takumInt ref f cases) t.toInt n k w = .ok false :=
    fun t n hn => (case_int t n).2.mp (h t n hn)
  by_cases hm : 2 ^ w.n * cases.length ≤ 2 ^ 22
  · have hw : w ≠ .w64 := by
      rintro rfl
      have : 2 ^ (W.w64).n * 1 ≤ 2 ^ (W.w64).n * cases.length := Nat.mul_le_mul_left _ hc
      exact absurd (this.trans hm) (by decide)
    exact status_zero (int_report hn hc hw hm (lt_of_le_of_lt hm (by norm_num)) (fun _ => True) (fun _ => True)
      (fun t j => iff_of_true trivial ⟨_, g t cases[j] (List.getElem_mem _)⟩)
      (fun t j => iff_of_true trivial (g t cases[j] (List.getElem_mem _))))
      (fun _ => trivial) (fun _ => trivial)
  · have hp : 2 ^ 22 < parCount w * cases.length := by
      by_cases hw : w = .w64
      · subst hw
        calc 2 ^ 22 < parCount .w64 * 1 := by decide
          _ ≤ _ := Nat.mul_le_mul_left _ hc
      · rw [parCount_eq hw]; exact not_le.mp hm
    have hmem : ∀ i : ℕ, cases.getD (i % cases.length) 0 ∈ cases := by
      intro i
      rw [List.getD_eq_getElem _ _ (Nat.mod_lt _ hc)]
      exact List.getElem_mem _
    exact status_zero (int_random_report hn hc (by omega) (by norm_num) (by norm_num) hp
      (fun t n => ∃ c, checkCase E (.takumInt ref f cases) t.toInt n k w = .ok c)
      (fun t n => checkCase E (.takumInt ref f cases) t.toInt n k w = .ok false)
      (fun _ _ => Iff.rfl) (fun _ _ => Iff.rfl)) (fun i => ⟨_, g _ _ (hmem _)⟩) (fun i => g _ _ (hmem _))

theorem int_equal {E : Env} {ref : Fl → ℤ → Fl} {f : Kind → (w : W) → T w → ℤ → C (T w)} {k : Kind} {w : W}
    {t u : T w} {n : ℤ} {a : Fl} (ha : toExt E.L k w t = .ok a) (hf : f k w t n = .ok u)
    (hr : Expected E.L k w (ref a n) (E.flags k w t.toInt n) u.toInt) : PassedInt E ref f k w t n :=
  ⟨_, ⟨a, ha, rfl⟩, u, u.toInt, hf, hr, fun _ => ⟨fun h => h.2 rfl, fun h => h.2.1 rfl⟩, by simp⟩

/-! ## Saturation -/

theorem toExt_eTo (L : Libm) (k : Kind) (w : W) (t : T w) : toExt L k w t = eTo L k w t := by cases k <;> rfl
theorem fromExt_eFrom (L : Libm) (k : Kind) (w : W) (f : Fl) : fromExt L k w f = eFrom L k w f := by cases k <;> rfl

/-- A number beyond the range of the takums. -/
theorem faithful_saturates {w : W} {k : Kind} {y : ℝ} {u : T w} (h : Faithful k y u) :
    ((2 : ℝ) ^ (256 : ℤ) ≤ y → u.toInt = 2 ^ (w.n - 1) - 1) ∧
    (y ≤ -(2 : ℝ) ^ (256 : ℤ) → u.toInt = -(2 ^ (w.n - 1) - 1)) ∧
    (0 < y → y ≤ (2 : ℝ) ^ (-256 : ℤ) → u.toInt = 1) ∧
    (y < 0 → -(2 : ℝ) ^ (-256 : ℤ) ≤ y → u.toInt = -1) := by
  have h8 := w.n_pos
  obtain ⟨p1, p2, -⟩ := two_pow_W w
  norm_num at p2
  obtain ⟨hn, h0, hf⟩ := h
  have nn : (nar w.n).toInt = -2 ^ (w.n - 1) := nar_toInt (by omega)
  have z : (0#w.n).toInt = 0 := by simp
  obtain ⟨u1, u2⟩ := toInt_InW u
  have une : u.toInt ≠ -2 ^ (w.n - 1) := fun h => hn (BitVec.eq_of_toInt_eq (h.trans nn.symm))
  have mk : ∀ i : ℤ, -2 ^ (w.n - 1) < i → i < 2 ^ (w.n - 1) → ∃ (s : T w) (v : ℝ), s.toInt = i ∧ value k s = some v := by
    intro i h1 h2
    have e := toInt_ofInt_W (w := w) (z := i) ⟨h1.le, h2⟩
    obtain ⟨v, hv⟩ := value_some (k := k) (t := BitVec.ofInt w.n i) (fun h => by rw [h, nn] at e; omega)
    exact ⟨_, v, e, hv⟩
  have q0 := hf (0#w.n) 0 (value_zero k)
  rw [z] at q0
  have une0 : y ≠ 0 → u.toInt ≠ 0 := fun hy h => hy (h0.mp (BitVec.eq_of_toInt_eq (h.trans z.symm)))
  have pos : (0 : ℝ) < (2 : ℝ) ^ (-256 : ℤ) := by positivity
  have pos' : (0 : ℝ) < (2 : ℝ) ^ (256 : ℤ) := by positivity
  refine ⟨fun hy => ?_, fun hy => ?_, fun hy hy' => ?_, fun hy hy' => ?_⟩
  · obtain ⟨s, v, e, hv⟩ := mk (2 ^ (w.n - 1) - 1) (by omega) (by omega)
    have : v ≤ (2 : ℝ) ^ (256 : ℤ) := by rcases value_range s v hv with h | h | h <;> linarith [h]
    have := (hf s v hv).1 (this.trans hy)
    omega
  · obtain ⟨s, v, e, hv⟩ := mk (-(2 ^ (w.n - 1) - 1)) (by omega) (by omega)
    have : -(2 : ℝ) ^ (256 : ℤ) ≤ v := by rcases value_range s v hv with h | h | h <;> linarith [h]
    have := (hf s v hv).2 (hy.trans this)
    omega
  · obtain ⟨s, v, e, hv⟩ := mk 1 (by omega) (by omega)
    have : (2 : ℝ) ^ (-256 : ℤ) ≤ v := by
      rcases value_cases hv with ⟨h, -⟩ | ⟨-, -, -, h, -⟩ | ⟨-, -, h, -⟩
      · rw [h, z] at e; omega
      · exact h
      · omega
    have a := (hf s v hv).2 (hy'.trans this)
    have b := q0.1 hy.le
    have c := une0 hy.ne'
    omega
  · obtain ⟨s, v, e, hv⟩ := mk (-1) (by omega) (by omega)
    have : v ≤ -(2 : ℝ) ^ (-256 : ℤ) := by
      rcases value_cases hv with ⟨h, -⟩ | ⟨-, -, h, -⟩ | ⟨-, -, -, h, -⟩
      · rw [h, z] at e; omega
      · omega
      · exact h
    have a := (hf s v hv).1 (this.trans hy')
    have b := q0.2 hy.le
    have c := une0 hy.ne
    omega

/-- The conversion of a `long double` gives one of the takums next to a number that is not much larger or
smaller. -/
theorem from_order {L : Libm} (hL : L.Conforming) (k : Kind) (w : W) {f : Fl} {v : ℚ} (hf : f.Is v) (hi : x80.In v) :
    ∃ (u : T w) (y : ℝ), fromExt L k w f = .ok u ∧ |y - v| ≤ 1 / 2 * |(v : ℝ)| ∧ Faithful k y u := by
  cases k
  · obtain ⟨u, y, e, h1, h2⟩ := logFrom_acc hL .ext w hf hi
    refine ⟨u, y, e, h1.trans (mul_le_mul_of_nonneg_right ?_ (abs_nonneg _)), h2⟩
    cases w <;> norm_num [fromTol]
  · by_cases hv : v = 0
    · subst hv
      rcases hf.cases with ⟨h0, _⟩ | ⟨_, s, rfl⟩
      · exact absurd rfl h0
      · exact ⟨_, 0, linFrom_zero .ext w s, by simp, Faithful.zero _⟩
    · obtain ⟨u, e, h⟩ := lin_from_faithful .ext w v hv hi
      rw [hf.eq_num hv]
      exact ⟨u, v, e, by simp, h.faithful (by exact_mod_cast hv)⟩

/-- Numbers far beyond the range. -/
theorem from_huge {L : Libm} (hL : L.Conforming) (k : Kind) (w : W) {f : Fl} {v : ℚ} (hf : f.Is v) (hi : x80.In v) :
    ∃ u : T w, fromExt L k w f = .ok u ∧
      ((2 : ℚ) ^ (990 : ℤ) ≤ v → u.toInt = 2 ^ (w.n - 1) - 1) ∧
      (v ≤ -(2 : ℚ) ^ (990 : ℤ) → u.toInt = -(2 ^ (w.n - 1) - 1)) ∧
      (0 < v → v ≤ (2 : ℚ) ^ (-990 : ℤ) → u.toInt = 1) ∧ (v < 0 → -(2 : ℚ) ^ (-990 : ℤ) ≤ v → u.toInt = -1) := by
  obtain ⟨u, y, e, h1, h2⟩ := from_order hL k w hf hi
  obtain ⟨a, b, c, d⟩ := faithful_saturates h2
  have p1 : (2 : ℝ) ^ (256 : ℤ) * 2 ≤ ((2 : ℚ) ^ (990 : ℤ) : ℚ) := by
    have : (2 : ℚ) ^ (256 : ℤ) * 2 ≤ (2 : ℚ) ^ (990 : ℤ) := by decide +kernel
    have := (Rat.cast_le (K := ℝ)).mpr this
    simpa only [Rat.cast_mul, Rat.cast_zpow, Rat.cast_ofNat] using this
  have p2 : (((2 : ℚ) ^ (-990 : ℤ) : ℚ) : ℝ) * 2 ≤ (2 : ℝ) ^ (-256 : ℤ) := by
    have : (2 : ℚ) ^ (-990 : ℤ) * 2 ≤ (2 : ℚ) ^ (-256 : ℤ) := by decide +kernel
    have := (Rat.cast_le (K := ℝ)).mpr this
    simpa only [Rat.cast_mul, Rat.cast_zpow, Rat.cast_ofNat] using this
  have q1 : (0 : ℝ) < (2 : ℝ) ^ (256 : ℤ) := by positivity
  have q2 : (0 : ℝ) < (((2 : ℚ) ^ (-990 : ℤ) : ℚ) : ℝ) := by positivity
  generalize (2 : ℚ) ^ (990 : ℤ) = M at *
  generalize (2 : ℚ) ^ (-990 : ℤ) = m at *
  generalize (2 : ℝ) ^ (256 : ℤ) = M' at *
  generalize (2 : ℝ) ^ (-256 : ℤ) = m' at *
  have hy := abs_le.mp h1
  refine ⟨u, e, fun h => a ?_, fun h => b ?_, fun h h' => ?_, fun h h' => ?_⟩
  · have h : (M : ℝ) ≤ v := by exact_mod_cast h
    rw [abs_of_pos (by linarith)] at hy; linarith
  · have h : (v : ℝ) ≤ -M := by exact_mod_cast h
    rw [abs_of_neg (by linarith)] at hy; linarith
  · have h : (0 : ℝ) < v := by exact_mod_cast h
    have h' : (v : ℝ) ≤ m := by exact_mod_cast h'
    rw [abs_of_pos h] at hy
    exact c (by linarith) (by linarith)
  · have h : (v : ℝ) < 0 := by exact_mod_cast h
    have h' : -(m : ℝ) ≤ v := by exact_mod_cast h'
    rw [abs_of_neg h] at hy
    exact d (by linarith) (by linarith)

end Takum.Test
