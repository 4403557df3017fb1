import Verif.Model.TestUtil
import Mathlib.Dynamics.PeriodicPts.Lemmas
import Mathlib.Tactic.NormNum.Prime

/-!
# The linear feedback shift registers of the test harness have maximal period

A polynomial over the field with two elements is coded as a natural number.  It acts on the states of
the register, `x` acting as the step of the register.  The feedback polynomial acts as zero, so that
calculating modulo it is allowed.
-/

namespace Takum.Test
open Takum Function

/-- The action of the polynomial with the lowest `k` coefficients of `c`. -/
def act {n : ℕ} (f : BitVec n → BitVec n) : ℕ → ℕ → BitVec n → BitVec n
  | 0, _, _ => 0#n
  | k + 1, c, s => (if c.testBit 0 then s else 0#n) ^^^ act f k (c / 2) (f s)

/-- Linear maps. -/
structure Lin {n : ℕ} (f : BitVec n → BitVec n) : Prop where
  xor : ∀ a b, f (a ^^^ b) = f a ^^^ f b

theorem Lin.zero {n : ℕ} {f : BitVec n → BitVec n} (h : Lin f) : f 0#n = 0#n := by
  have := h.xor 0#n 0#n
  simpa using this

section
variable {n : ℕ} {f : BitVec n → BitVec n}

theorem xor_shuffle (a b c d : BitVec n) : (a ^^^ b) ^^^ (c ^^^ d) = (a ^^^ c) ^^^ (b ^^^ d) := by
  ac_rfl

theorem act_lin (hf : Lin f) (k c : ℕ) : Lin (act f k c) := by
  constructor
  induction k generalizing c with
  | zero => intro a b; simp [act]
  | succ k ih =>
    intro a b
    simp only [act, hf.xor, ih]
    rw [xor_shuffle]
    congr 1
    split_ifs <;> simp

theorem act_comm (hf : Lin f) (k c : ℕ) (s : BitVec n) : act f k c (f s) = f (act f k c s) := by
  induction k generalizing c s with
  | zero => simp [act, hf.zero]
  | succ k ih =>
    simp only [act, hf.xor, ih]
    congr 1
    split_ifs <;> simp [hf.zero]

theorem act_xor (k c d : ℕ) (s : BitVec n) :
    act f k (c ^^^ d) s = act f k c s ^^^ act f k d s := by
  induction k generalizing c d s with
  | zero => simp [act]
  | succ k ih =>
    have e : (c ^^^ d) / 2 = c / 2 ^^^ d / 2 := by
      have := Nat.shiftRight_xor_distrib (a := c) (b := d) (i := 1)
      simpa [Nat.shiftRight_one] using this
    simp only [act, e, ih, Nat.testBit_xor]
    rw [xor_shuffle]
    congr 1
    cases c.testBit 0 <;> cases d.testBit 0 <;> simp

theorem act_zero (k : ℕ) (s : BitVec n) : act f k 0 s = 0#n := by
  induction k generalizing s with
  | zero => rfl
  | succ k ih => simp [act, ih]

theorem act_fuel {k c : ℕ} (h : c < 2 ^ k) (j : ℕ) (s : BitVec n) :
    act f (k + j) c s = act f k c s := by
  induction k generalizing c s with
  | zero =>
    have : c = 0 := by simpa using h
    subst this; rw [act_zero]; rfl
  | succ k ih =>
    rw [Nat.add_right_comm]
    simp only [act]
    rw [ih (by rw [pow_succ] at h; omega)]

theorem act_double (k c : ℕ) (s : BitVec n) : act f (k + 1) (2 * c) s = act f k c (f s) := by
  simp only [act]
  rw [Nat.mul_div_cancel_left _ (by norm_num)]
  simp [Nat.testBit_zero]

theorem act_one (k : ℕ) (s : BitVec n) : act f (k + 1) 1 s = s := by
  simp [act, act_zero]

theorem act_two (k : ℕ) (s : BitVec n) : act f (k + 2) 2 s = f s := by
  rw [show (2 : ℕ) = 2 * 1 from rfl, act_double k.succ, act_one]

end

/-- Multiplication by `x` modulo `P` of degree `n`. -/
def mulx (n P b : ℕ) : ℕ := if (2 * b).testBit n then (2 * b) ^^^ P else 2 * b

/-- Multiplication modulo `P`. -/
def pmul (n P : ℕ) : ℕ → ℕ → ℕ → ℕ
  | 0, _, _ => 0
  | k + 1, a, b => (if a.testBit 0 then b else 0) ^^^ pmul n P k (a / 2) (mulx n P b)

/-- Powers modulo `P`. -/
def ppow (n P : ℕ) : ℕ → ℕ → ℕ → ℕ
  | 0, _, _ => 1
  | k + 1, b, e =>
    if e.testBit 0 then pmul n P n b (ppow n P k (pmul n P n b b) (e / 2))
    else ppow n P k (pmul n P n b b) (e / 2)

section
variable {n P : ℕ} {f : BitVec n → BitVec n}

theorem mulx_lt (hP : P < 2 ^ (n + 1)) (hb : P.testBit n = true) {b : ℕ} (h : b < 2 ^ n) :
    mulx n P b < 2 ^ n := by
  have hd : 2 * b < 2 ^ (n + 1) := by rw [pow_succ]; omega
  unfold mulx
  apply Nat.lt_pow_two_of_testBit
  intro i hi
  rcases Nat.eq_or_lt_of_le hi with rfl | hi
  · split_ifs with h1
    · rw [Nat.testBit_xor, h1, hb]; rfl
    · simpa using h1
  · have e1 : (2 * b).testBit i = false :=
      Nat.testBit_lt_two_pow (lt_of_lt_of_le hd (Nat.pow_le_pow_right (by norm_num) hi))
    have e2 : P.testBit i = false :=
      Nat.testBit_lt_two_pow (lt_of_lt_of_le hP (Nat.pow_le_pow_right (by norm_num) hi))
    split_ifs
    · rw [Nat.testBit_xor, e1, e2]; rfl
    · exact e1

theorem pmul_lt (hP : P < 2 ^ (n + 1)) (hb : P.testBit n = true) (k a : ℕ) {b : ℕ} (h : b < 2 ^ n) :
    pmul n P k a b < 2 ^ n := by
  induction k generalizing a b with
  | zero => exact Nat.two_pow_pos n
  | succ k ih =>
    refine Nat.xor_lt_two_pow ?_ (ih _ (mulx_lt hP hb h))
    split_ifs
    · exact h
    · exact Nat.two_pow_pos n

theorem act_mulx (hf : Lin f) (hP : P < 2 ^ (n + 1)) (hb : P.testBit n = true)
    (h0 : ∀ s, act f (n + 1) P s = 0#n) {b : ℕ} (h : b < 2 ^ n) (s : BitVec n) :
    act f n (mulx n P b) s = f (act f n b s) := by
  have hl := mulx_lt hP hb h
  rw [← act_comm hf, ← act_double, ← act_fuel hl 1]
  unfold mulx
  split_ifs
  · rw [act_xor, h0]; simp
  · rfl

theorem act_pmul (hf : Lin f) (hP : P < 2 ^ (n + 1)) (hb : P.testBit n = true)
    (h0 : ∀ s, act f (n + 1) P s = 0#n) (k a : ℕ) {b : ℕ} (h : b < 2 ^ n) (s : BitVec n) :
    act f n (pmul n P k a b) s = act f k a (act f n b s) := by
  induction k generalizing a b with
  | zero => simp [pmul, act, act_zero]
  | succ k ih =>
    simp only [pmul, act]
    rw [act_xor, ih _ (mulx_lt hP hb h), act_mulx hf hP hb h0 h]
    congr 1
    split_ifs
    · rfl
    · rw [act_zero]

theorem ppow_spec (hn : 0 < n) (hf : Lin f) (hP : P < 2 ^ (n + 1)) (hb : P.testBit n = true)
    (h0 : ∀ s, act f (n + 1) P s = 0#n) (k : ℕ) : ∀ b e : ℕ, b < 2 ^ n → e < 2 ^ k →
    ppow n P k b e < 2 ^ n ∧ ∀ s, act f n (ppow n P k b e) s = (act f n b)^[e] s := by
  induction k with
  | zero =>
    intro b e _ he
    have : e = 0 := by simpa using he
    subst this
    refine ⟨Nat.one_lt_two_pow hn.ne', fun s => ?_⟩
    obtain ⟨m, rfl⟩ : ∃ m, n = m + 1 := ⟨n - 1, by omega⟩
    exact act_one m s
  | succ k ih =>
    intro b e hbb he
    have hsq := pmul_lt hP hb n b hbb
    obtain ⟨i1, i2⟩ := ih (pmul n P n b b) (e / 2) hsq (by rw [pow_succ] at he; omega)
    have hsq' : act f n (pmul n P n b b) = (act f n b)^[2] := by
      funext s; rw [act_pmul hf hP hb h0 n b hbb]; rfl
    simp only [ppow, Nat.testBit_zero]
    rcases Nat.mod_two_eq_zero_or_one e with h | h
    · have : ¬ (decide (e % 2 = 1) = true) := by simp [h]
      rw [if_neg this]
      refine ⟨i1, fun s => ?_⟩
      rw [i2, hsq', ← iterate_mul]
      congr 1; omega
    · have : decide (e % 2 = 1) = true := by simp [h]
      rw [if_pos this]
      refine ⟨pmul_lt hP hb n b i1, fun s => ?_⟩
      rw [act_pmul hf hP hb h0 n b i1, i2, hsq', ← iterate_mul, ← iterate_succ_apply' (f := act f n b)]
      congr 1; omega

/-- A linear map that is zero on the powers of two is zero. -/
theorem lin_zero {g : BitVec n → BitVec n} (hg : Lin g) (h : ∀ i < n, g (BitVec.twoPow n i) = 0#n)
    (s : BitVec n) : g s = 0#n := by
  have main : ∀ k ≤ n, ∀ s : BitVec n, s.toNat < 2 ^ k → g s = 0#n := by
    intro k
    induction k with
    | zero =>
      intro _ s hs
      have : s = 0#n := BitVec.eq_of_toNat_eq (by simpa using hs)
      rw [this, hg.zero]
    | succ k ih =>
      intro hk s hs
      by_cases hb : s.getLsbD k = true
      · have e : s = BitVec.twoPow n k ^^^ (BitVec.twoPow n k ^^^ s) := by
          rw [← BitVec.xor_assoc, BitVec.xor_self, BitVec.zero_xor]
        rw [e, hg.xor, h k (by omega), BitVec.zero_xor]
        apply ih (by omega)
        rw [BitVec.toNat_xor, BitVec.toNat_twoPow]
        rw [Nat.mod_eq_of_lt (Nat.pow_lt_pow_right (by norm_num) (by omega))]
        apply Nat.lt_pow_two_of_testBit
        intro i hi
        rw [Nat.testBit_xor, Nat.testBit_two_pow]
        rcases Nat.eq_or_lt_of_le hi with rfl | hi
        · have : s.toNat.testBit k = true := hb
          simp [this]
        · have : s.toNat.testBit i = false :=
            Nat.testBit_lt_two_pow (lt_of_lt_of_le hs (Nat.pow_le_pow_right (by norm_num) hi))
          simp [this]; omega
      · apply ih (by omega)
        apply Nat.lt_pow_two_of_testBit
        intro i hi
        rcases Nat.eq_or_lt_of_le hi with rfl | hi
        · have : s.toNat.testBit k = s.getLsbD k := rfl
          rw [this]; simpa using hb
        · exact Nat.testBit_lt_two_pow (lt_of_lt_of_le hs (Nat.pow_le_pow_right (by norm_num) hi))
  exact main n le_rfl s s.isLt

/-- A divisor of `N` that divides none of the quotients of `N` by its prime factors is `N`. -/
theorem eq_of_dvd_of_primes {d N : ℕ} (h : d ∣ N)
    (hq : ∀ q, q.Prime → q ∣ N → ¬ d ∣ N / q) : d = N := by
  obtain ⟨c, rfl⟩ := h
  by_cases hc : c = 1
  · rw [hc, mul_one]
  · obtain ⟨q, hp, e, rfl⟩ := Nat.exists_prime_and_dvd hc
    refine absurd ⟨e, ?_⟩ (hq q hp ⟨d * e, by ring⟩)
    rw [show d * (q * e) = q * (d * e) by ring, Nat.mul_div_cancel_left _ hp.pos]

/-- The condition for the period, in numbers: `x` to the power `2^n - 1` is 1, and for each prime
factor `q` of `2^n - 1` the polynomial `x^((2^n - 1)/q) + 1` has an inverse. -/
theorem period (hn : 1 < n) (hf : Lin f) (hP : P < 2 ^ (n + 1)) (hb : P.testBit n = true)
    (h0 : ∀ s, act f (n + 1) P s = 0#n) (h1 : ppow n P n 2 (2 ^ n - 1) = 1)
    (hq : ∀ q, q.Prime → q ∣ 2 ^ n - 1 → ∃ u, pmul n P n u (ppow n P n 2 ((2 ^ n - 1) / q) ^^^ 1) = 1)
    {s : BitVec n} (hs : s ≠ 0#n) : minimalPeriod f s = 2 ^ n - 1 := by
  have h2 : 2 < 2 ^ n ∨ n = 1 ∨ 2 = 2 ^ n := by
    rcases Nat.lt_or_ge 2 (2 ^ n) with h | h
    · exact .inl h
    · exact .inr (.inr (le_antisymm (by calc 2 = 2 ^ 1 := rfl
        _ ≤ 2 ^ n := Nat.pow_le_pow_right (by norm_num) (by omega)) h))
  have h2 : 2 < 2 ^ n := by
    calc 2 < 2 ^ 2 := by norm_num
      _ ≤ 2 ^ n := Nat.pow_le_pow_right (by norm_num) hn
  obtain ⟨m, hm⟩ : ∃ m, n = m + 2 := ⟨n - 2, by omega⟩
  have hx : act f n 2 = f := by
    funext s; subst hm; exact act_two m s
  have one : ∀ s, act f n 1 s = s := by
    intro s; subst hm; exact act_one (m + 1) s
  have hpos : 0 < 2 ^ n := by positivity
  have hN := (ppow_spec (by omega) hf hP hb h0 n 2 (2 ^ n - 1) h2 (by omega)).2 s
  rw [h1, one, hx] at hN
  apply eq_of_dvd_of_primes
  · exact IsPeriodicPt.minimalPeriod_dvd hN.symm
  · intro q hp hd hc
    obtain ⟨u, hu⟩ := hq q hp hd
    have hlt : (2 ^ n - 1) / q < 2 ^ n := lt_of_le_of_lt (Nat.div_le_self _ _) (by omega)
    obtain ⟨l1, l2⟩ := ppow_spec (by omega) hf hP hb h0 n 2 ((2 ^ n - 1) / q) h2 hlt
    have l3 := l2 s
    rw [hx] at l3
    have l4 : f^[(2 ^ n - 1) / q] s = s := by
      exact (isPeriodicPt_minimalPeriod f s).trans_dvd hc
    have l5 : act f n (ppow n P n 2 ((2 ^ n - 1) / q) ^^^ 1) s = 0#n := by
      rw [act_xor, l3, l4, one, BitVec.xor_self]
    have l6 := act_pmul hf hP hb h0 n u
      (Nat.xor_lt_two_pow l1 (show 1 < 2 ^ n by omega)) s
    rw [hu, one, l5, (act_lin hf n u).zero] at l6
    exact hs l6

end

/-! ## The four registers -/

theorem bool_shuffle : ∀ a b c d a' b' c' d' z : Bool,
    (((a ^^ a') ^^ (b ^^ b') ^^ (c ^^ c') ^^ (d ^^ d')) && z) =
      (((a ^^ b ^^ c ^^ d) && z) ^^ ((a' ^^ b' ^^ c' ^^ d') && z)) := by decide

theorem feedback_xor (w : W) (a b : T w) : feedback w (a ^^^ b) = feedback w a ^^^ feedback w b := by
  cases w <;> simp only [feedback] <;> (apply BitVec.eq_of_getLsbD_eq; intro i _) <;>
    simp only [BitVec.getLsbD_and, BitVec.getLsbD_xor, BitVec.getLsbD_ushiftRight] <;>
    exact bool_shuffle _ _ _ _ _ _ _ _ _

theorem lfsr_xor_form (w : W) (s : T w) : lfsr w s = (feedback w s <<< (w.n - 1)) ^^^ (s >>> 1) := by
  unfold lfsr
  apply BitVec.eq_of_getLsbD_eq
  intro i hi
  simp only [BitVec.getLsbD_or, BitVec.getLsbD_xor, BitVec.getLsbD_shiftLeft, BitVec.getLsbD_ushiftRight]
  by_cases h : i < w.n - 1
  · simp [h]
  · have : s.getLsbD (1 + i) = false := BitVec.getLsbD_of_ge _ _ (by omega)
    rw [this]; simp

theorem lfsr_lin (w : W) : Lin (lfsr w) := by
  constructor
  intro a b
  simp only [lfsr_xor_form, feedback_xor]
  rw [xor_shuffle, BitVec.shiftLeft_xor_distrib, BitVec.ushiftRight_xor_distrib]

/-- The feedback polynomials as numbers: `x⁸ + x⁴ + x³ + x² + 1` and so on. -/
def poly : W → ℕ
  | .w8 => 2 ^ 8 + 2 ^ 4 + 2 ^ 3 + 2 ^ 2 + 1
  | .w16 => 2 ^ 16 + 2 ^ 12 + 2 ^ 3 + 2 + 1
  | .w32 => 2 ^ 32 + 2 ^ 31 + 2 ^ 30 + 2 ^ 10 + 1
  | .w64 => 2 ^ 64 + 2 ^ 4 + 2 ^ 3 + 2 + 1

theorem poly_basis (w : W) : ∀ i < w.n, act (lfsr w) (w.n + 1) (poly w) (BitVec.twoPow w.n i) = 0#w.n := by
  cases w <;> decide +kernel

theorem poly_act (w : W) (s : T w) : act (lfsr w) (w.n + 1) (poly w) s = 0#w.n :=
  lin_zero (act_lin (lfsr_lin w) _ _) (poly_basis w) s

theorem poly_lt (w : W) : poly w < 2 ^ (w.n + 1) ∧ (poly w).testBit w.n = true := by
  cases w <;> decide

theorem poly_pow (w : W) : ppow w.n (poly w) w.n 2 (2 ^ w.n - 1) = 1 := by
  cases w <;> decide +kernel

theorem prime_factors {q : ℕ} (hp : q.Prime) :
    (q ∣ 2 ^ 8 - 1 → q = 3 ∨ q = 5 ∨ q = 17) ∧
    (q ∣ 2 ^ 16 - 1 → q = 3 ∨ q = 5 ∨ q = 17 ∨ q = 257) ∧
    (q ∣ 2 ^ 32 - 1 → q = 3 ∨ q = 5 ∨ q = 17 ∨ q = 257 ∨ q = 65537) ∧
    (q ∣ 2 ^ 64 - 1 → q = 3 ∨ q = 5 ∨ q = 17 ∨ q = 257 ∨ q = 641 ∨ q = 65537 ∨ q = 6700417) := by
  have e : ∀ p : ℕ, p.Prime → (q ∣ p ↔ q = p) := fun p h => Nat.prime_dvd_prime_iff_eq hp h
  have p3 := e 3 (by norm_num)
  have p5 := e 5 (by norm_num)
  have p17 := e 17 (by norm_num)
  have p257 := e 257 (by norm_num)
  have p641 := e 641 (by norm_num)
  have p65537 := e 65537 (by norm_num)
  have pb := e 6700417 (by norm_num)
  refine ⟨?_, ?_, ?_, ?_⟩
  · rw [show 2 ^ 8 - 1 = 3 * (5 * 17) by norm_num]
    simp only [hp.dvd_mul, p3, p5, p17]; exact id
  · rw [show 2 ^ 16 - 1 = 3 * (5 * (17 * 257)) by norm_num]
    simp only [hp.dvd_mul, p3, p5, p17, p257]; exact id
  · rw [show 2 ^ 32 - 1 = 3 * (5 * (17 * (257 * 65537))) by norm_num]
    simp only [hp.dvd_mul, p3, p5, p17, p257, p65537]; exact id
  · rw [show 2 ^ 64 - 1 = 3 * (5 * (17 * (257 * (641 * (65537 * 6700417))))) by norm_num]
    simp only [hp.dvd_mul, p3, p5, p17, p257, p641, p65537, pb]; exact id

theorem poly_inv (w : W) (q : ℕ) (hp : q.Prime) (hd : q ∣ 2 ^ w.n - 1) :
    ∃ u, pmul w.n (poly w) w.n u (ppow w.n (poly w) w.n 2 ((2 ^ w.n - 1) / q) ^^^ 1) = 1 := by
  have h := prime_factors hp
  cases w
  · rcases h.1 hd with rfl | rfl | rfl
    · exact ⟨214, by decide +kernel⟩
    · exact ⟨152, by decide +kernel⟩
    · exact ⟨138, by decide +kernel⟩
  · rcases h.2.1 hd with rfl | rfl | rfl | rfl
    · exact ⟨350, by decide +kernel⟩
    · exact ⟨26, by decide +kernel⟩
    · exact ⟨6085, by decide +kernel⟩
    · exact ⟨23989, by decide +kernel⟩
  · rcases h.2.2.1 hd with rfl | rfl | rfl | rfl | rfl
    · exact ⟨2583571586, by decide +kernel⟩
    · exact ⟨567667165, by decide +kernel⟩
    · exact ⟨1355749172, by decide +kernel⟩
    · exact ⟨4141189751, by decide +kernel⟩
    · exact ⟨1631436590, by decide +kernel⟩
  · rcases h.2.2.2 hd with rfl | rfl | rfl | rfl | rfl | rfl | rfl
    · exact ⟨1858076378458151938, by decide +kernel⟩
    · exact ⟨13279093613986655127, by decide +kernel⟩
    · exact ⟨88670320258251612, by decide +kernel⟩
    · exact ⟨17062698742014672638, by decide +kernel⟩
    · exact ⟨6878206139421252571, by decide +kernel⟩
    · exact ⟨169927546495942853, by decide +kernel⟩
    · exact ⟨13712154023323248779, by decide +kernel⟩

theorem lfsr_period (w : W) {s : T w} (hs : s ≠ 0#w.n) : minimalPeriod (lfsr w) s = 2 ^ w.n - 1 :=
  period (by cases w <;> decide) (lfsr_lin w) (poly_lt w).1 (poly_lt w).2 (poly_act w) (poly_pow w)
    (poly_inv w) hs

end Takum.Test
