import Verif.Lemmas.TestSample

/-!
# The random samples
-/

namespace Takum.Test
open Takum Spec Function

/-- The values and the number of calls of `rand()` of the generator started with zero. -/
def rs (rand : ℕ → ℤ) (w : W) : ℕ → ℤ × ℕ
  | 0 => (0, 0)
  | i + 1 => randomNext rand w (rs rand w i).1 (rs rand w i).2

/-- The same for two generators that share `rand()`. -/
def ps (rand : ℕ → ℤ) (w : W) : ℕ → (ℤ × ℤ) × ℕ
  | 0 => ((0, 0), 0)
  | i + 1 =>
    let r := randomNext rand w (ps rand w i).1.1 (ps rand w i).2
    let q := randomNext rand w (ps rand w i).1.2 r.2
    ((r.1, q.1), q.2)

theorem zero_InW (w : W) : InW w 0 := by
  obtain ⟨-, h, -⟩ := two_pow_W w
  norm_num at h
  constructor <;> linarith

theorem randomNext_InW (rand : ℕ → ℤ) (w : W) (x : ℤ) (c : ℕ) : InW w (randomNext rand w x c).1 := by
  unfold randomNext
  simp only
  split_ifs <;> exact toInt_InW _

theorem rs_InW (rand : ℕ → ℤ) (w : W) (i : ℕ) : InW w (rs rand w i).1 := by
  cases i with
  | zero => exact zero_InW w
  | succ i => exact randomNext_InW _ _ _ _

theorem ps_InW (rand : ℕ → ℤ) (w : W) (i : ℕ) : InW w (ps rand w i).1.1 ∧ InW w (ps rand w i).1.2 := by
  cases i with
  | zero => exact ⟨zero_InW w, zero_InW w⟩
  | succ i => exact ⟨randomNext_InW _ _ _ _, randomNext_InW _ _ _ _⟩

theorem run_random (rand : ℕ → ℤ) (blk : Block) (w : W) {M : ℕ} (hM : 0 < M) (hlt : M < 2 ^ 64) :
    Run rand blk w (fun i => ⟨.takumRandom, (rs rand w i).1, parNar w, i + 1, M, (rs rand w i).2⟩) M := by
  refine ⟨hM, fun i hi => ?_, ?_⟩
  · have h1 : ¬ (i + 1 ≥ M) := by omega
    simp only [samplerNext, if_neg h1, Nat.mod_eq_of_lt (show i + 1 + 1 < 2 ^ 64 by omega)]
    rfl
  · have h1 : M - 1 + 1 ≥ M := by omega
    simp only [samplerNext, if_pos h1]

theorem run_random2 (rand : ℕ → ℤ) (blk : Block) (w : W) {M : ℕ} (hM : 0 < M) (hlt : M < 2 ^ 64) :
    Run rand blk w (fun i => ⟨.takumTakumRandom, (ps rand w i).1.1, (ps rand w i).1.2, i + 1, M,
      (ps rand w i).2⟩) M := by
  refine ⟨hM, fun i hi => ?_, ?_⟩
  · have h1 : ¬ (i + 1 ≥ M) := by omega
    simp only [samplerNext, if_neg h1, Nat.mod_eq_of_lt (show i + 1 + 1 < 2 ^ 64 by omega)]
    rfl
  · have h1 : M - 1 + 1 ≥ M := by omega
    simp only [samplerNext, if_pos h1]

theorem run_randomInt (rand : ℕ → ℤ) (ref : Fl → ℤ → Fl) (f : Kind → (w : W) → T w → ℤ → C (T w))
    {cases : List ℤ} (hn : cases.Nodup) (hc : 0 < cases.length) (w : W) {M : ℕ} (hM : 0 < M)
    (hlt : M < 2 ^ 64) :
    Run rand (.takumInt ref f cases) w (fun i => ⟨.takumIntRandom, (rs rand w (i / cases.length)).1,
      cases.getD (i % cases.length) 0, i + 1, M, (rs rand w (i / cases.length)).2⟩) M := by
  refine ⟨hM, fun i hi => ?_, ?_⟩
  · have h1 : ¬ (i + 1 ≥ M) := by omega
    have hr : i % cases.length < cases.length := Nat.mod_lt _ hc
    have hcur : (i + 1 + 1) % 2 ^ 64 = i + 1 + 1 := Nat.mod_eq_of_lt (by omega)
    have hne : ¬ (i % cases.length = cases.length) := by omega
    by_cases hy : i % cases.length + 1 = cases.length
    · have e1 : i % cases.length = cases.length - 1 := by omega
      obtain ⟨f1, f2⟩ := step_carry hy
      simp only [samplerNext, if_neg h1, Block.cases, caseIndex_get hn hr, if_neg hne, if_pos e1,
        R_ok_bind, f1, f2, hcur, lut_get hc]
      rfl
    · have e1 : ¬ (i % cases.length = cases.length - 1) := by omega
      have hy' : i % cases.length + 1 < cases.length := by omega
      obtain ⟨f1, f2⟩ := step_nocarry hy'
      simp only [samplerNext, if_neg h1, Block.cases, caseIndex_get hn hr, if_neg hne, if_neg e1,
        R_ok_bind, f1, f2, hcur, lut_get hy']
      rfl
  · have h1 : M - 1 + 1 ≥ M := by omega
    simp only [samplerNext, if_pos h1]

/-! ## The samples as takums -/

/-- The `i`-th sample. -/
def xs (rand : ℕ → ℤ) (w : W) (i : ℕ) : T w := BitVec.ofInt w.n (rs rand w i).1

/-- The `i`-th pair of samples. -/
def xys (rand : ℕ → ℤ) (w : W) (i : ℕ) : T w × T w :=
  (BitVec.ofInt w.n (ps rand w i).1.1, BitVec.ofInt w.n (ps rand w i).1.2)

theorem xs_toInt (rand : ℕ → ℤ) (w : W) (i : ℕ) : (xs rand w i).toInt = (rs rand w i).1 :=
  toInt_ofInt_W (rs_InW rand w i)

theorem xys_toInt (rand : ℕ → ℤ) (w : W) (i : ℕ) :
    (xys rand w i).1.toInt = (ps rand w i).1.1 ∧ (xys rand w i).2.toInt = (ps rand w i).1.2 :=
  ⟨toInt_ofInt_W (ps_InW rand w i).1, toInt_ofInt_W (ps_InW rand w i).2⟩

theorem xs_zero (rand : ℕ → ℤ) (w : W) : xs rand w 0 = 0#w.n := by
  simp [xs, rs]

theorem iterate_zero_iff (w : W) {s : T w} (hs : s ≠ 0#w.n) (i : ℕ) : (lfsr w)^[i] s ≠ 0#w.n := by
  intro h
  have hp := lfsr_period w hs
  have hN : 0 < 2 ^ w.n - 1 := by cases w <;> decide
  have hz : lfsr w 0#w.n = 0#w.n := (lfsr_lin w).zero
  have h0 : ∀ m, (lfsr w)^[m] 0#w.n = 0#w.n := fun m => iterate_fixed hz m
  -- go on to a multiple of the period
  have hm : (lfsr w)^[i * (2 ^ w.n - 1)] s = s := by
    have := isPeriodicPt_minimalPeriod (lfsr w) s
    rw [hp] at this
    exact this.const_mul i
  apply hs
  rw [← hm, show i * (2 ^ w.n - 1) = (i * (2 ^ w.n - 1) - i) + i by
    have : i ≤ i * (2 ^ w.n - 1) := Nat.le_mul_of_pos_right i hN
    omega, iterate_add_apply, h, h0]

theorem rs_seed {rand : ℕ → ℤ} {w : W} (h : BitVec.ofInt w.n (rand 0) ≠ 0#w.n) (i : ℕ) :
    rs rand w (i + 1) = (((lfsr w)^[i + 1] (BitVec.ofInt w.n (rand 0))).toInt, 1) := by
  induction i with
  | zero => simp [rs, randomNext]
  | succ i ih =>
    rw [rs, ih]
    unfold randomNext
    simp only [BitVec.ofInt_toInt]
    rw [if_neg (iterate_zero_iff w h _), ← iterate_succ_apply' (f := lfsr w)]

theorem xs_seed {rand : ℕ → ℤ} {w : W} (h : BitVec.ofInt w.n (rand 0) ≠ 0#w.n) (i : ℕ) :
    xs rand w (i + 1) = (lfsr w)^[i + 1] (BitVec.ofInt w.n (rand 0)) := by
  rw [xs, rs_seed h, BitVec.ofInt_toInt]

theorem iterate_inj (w : W) {s : T w} (hs : s ≠ 0#w.n) {i j : ℕ} (hi : i < 2 ^ w.n - 1)
    (hj : j < 2 ^ w.n - 1) (h : (lfsr w)^[i] s = (lfsr w)^[j] s) : i = j := by
  have := lfsr_period w hs
  exact (iterate_injOn_Iio_minimalPeriod (f := lfsr w) (x := s)) (by rw [this]; exact hi)
    (by rw [this]; exact hj) h

theorem lfsr_inj (w : W) {a b : T w} (h : lfsr w a = lfsr w b) : a = b := by
  have e : lfsr w (a ^^^ b) = 0#w.n := by rw [(lfsr_lin w).xor, h, BitVec.xor_self]
  by_contra hc
  have hne : a ^^^ b ≠ 0#w.n := by
    intro h; exact hc (BitVec.xor_eq_zero_iff.mp h)
  exact iterate_zero_iff w hne 1 e

theorem xs_inj {rand : ℕ → ℤ} {w : W} (h : BitVec.ofInt w.n (rand 0) ≠ 0#w.n) {i j : ℕ}
    (hi : i < 2 ^ w.n) (hj : j < 2 ^ w.n) (e : xs rand w i = xs rand w j) : i = j := by
  have hne : ∀ i, xs rand w (i + 1) ≠ 0#w.n := fun i => by
    rw [xs_seed h]; exact iterate_zero_iff w h _
  cases i with
  | zero =>
    cases j with
    | zero => rfl
    | succ j => rw [xs_zero] at e; exact absurd e.symm (hne j)
  | succ i =>
    cases j with
    | zero => rw [xs_zero] at e; exact absurd e (hne i)
    | succ j =>
      rw [xs_seed h, xs_seed h, iterate_succ_apply', iterate_succ_apply'] at e
      rw [iterate_inj w h (by omega) (by omega) (lfsr_inj w e)]

theorem ps_seed {rand : ℕ → ℤ} {w : W} (h : BitVec.ofInt w.n (rand 0) ≠ 0#w.n)
    (h' : BitVec.ofInt w.n (rand 1) ≠ 0#w.n) (i : ℕ) :
    ps rand w (i + 1) = ((((lfsr w)^[i + 1] (BitVec.ofInt w.n (rand 0))).toInt,
      ((lfsr w)^[i + 1] (BitVec.ofInt w.n (rand 1))).toInt), 2) := by
  induction i with
  | zero => simp [ps, randomNext]
  | succ i ih =>
    rw [ps, ih]
    unfold randomNext
    simp only [BitVec.ofInt_toInt]
    rw [if_neg (iterate_zero_iff w h _), if_neg (iterate_zero_iff w h' _),
      ← iterate_succ_apply' (f := lfsr w), ← iterate_succ_apply' (f := lfsr w)]

theorem xys_seed {rand : ℕ → ℤ} {w : W} (h : BitVec.ofInt w.n (rand 0) ≠ 0#w.n)
    (h' : BitVec.ofInt w.n (rand 1) ≠ 0#w.n) (i : ℕ) :
    xys rand w (i + 1) = ((lfsr w)^[i + 1] (BitVec.ofInt w.n (rand 0)),
      (lfsr w)^[i + 1] (BitVec.ofInt w.n (rand 1))) := by
  rw [xys, ps_seed h h', BitVec.ofInt_toInt, BitVec.ofInt_toInt]

theorem xys_zero (rand : ℕ → ℤ) (w : W) : xys rand w 0 = (0#w.n, 0#w.n) := by
  simp [xys, ps]

theorem xys_eq_iff {rand : ℕ → ℤ} {w : W} (h : BitVec.ofInt w.n (rand 0) ≠ 0#w.n)
    (h' : BitVec.ofInt w.n (rand 1) ≠ 0#w.n) {i j : ℕ} :
    xys rand w (i + 1) = xys rand w (j + 1) ↔ i % (2 ^ w.n - 1) = j % (2 ^ w.n - 1) := by
  have hper : ∀ {s : T w}, s ≠ 0#w.n → ∀ m, (lfsr w)^[m % (2 ^ w.n - 1)] s = (lfsr w)^[m] s := by
    intro s hs m
    rw [← lfsr_period w hs, iterate_mod_minimalPeriod_eq]
  have hN : 0 < 2 ^ w.n - 1 := by cases w <;> decide
  rw [xys_seed h h', xys_seed h h', Prod.mk.injEq]
  simp only [iterate_succ_apply' (f := lfsr w)]
  constructor
  · rintro ⟨e, -⟩
    have := lfsr_inj w e
    rw [← hper h, ← hper h j] at this
    exact iterate_inj w h (Nat.mod_lt _ hN) (Nat.mod_lt _ hN) this
  · intro e
    rw [← hper h, ← hper h j, ← hper h' i, ← hper h' j, e]
    exact ⟨rfl, rfl⟩

/-! ## Reports -/

theorem random_report {E : Env} {blk : Block} (hb : blk.OneD) {k : Kind} {w : W} {M : ℕ}
    (hM : 0 < M) (hlt : M < 2 ^ 63) (hm : M < parCount w) (Def Pass : T w → Prop)
    (hdef : ∀ t, Def t ↔ ∃ c, checkCase E blk t.toInt (parNar w) k w = .ok c)
    (hpass : ∀ t, Pass t ↔ checkCase E blk t.toInt (parNar w) k w = .ok false) :
    Reports (runType E blk k w M) M (fun i : Fin M => Def (xs (E.rand k w) w i))
      (fun i : Fin M => Pass (xs (E.rand k w) w i)) := by
  refine run_report (run_random (E.rand k w) blk w hM (by omega)) hlt ?_ rfl (Equiv.refl _) _ _ ?_ ?_
  · rw [init_random hb hm]; rfl
  · intro i
    show Def _ ↔ _
    rw [hdef, xs_toInt]; rfl
  · intro i
    show Pass _ ↔ _
    rw [hpass, xs_toInt]; rfl

theorem init_pairs_random {ref : Fl → Fl → Fl} {f : Kind → (w : W) → T w → T w → C (T w)} {w : W}
    {M : ℕ} (hlt : M < 2 ^ 63) (hw : M < 2 ^ w.n * 2 ^ w.n) :
    samplerInit (.binary ref f) w M = .ok ⟨.takumTakumRandom, 0, 0, 1, M, 0⟩ := by
  have h : ∃ full, safeMul (parCount w) (parCount w) = .ok full ∧ ¬ full ≤ M := by
    cases w
    · exact ⟨65536, by decide, by norm_num at hw; omega⟩
    · exact ⟨4294967296, by decide, by norm_num at hw; omega⟩
    · exact ⟨2 ^ 64 - 1, by decide, by omega⟩
    · exact ⟨2 ^ 64 - 1, by decide, by omega⟩
  obtain ⟨full, h1, h2⟩ := h
  simp only [samplerInit, h1, R_ok_bind, if_neg h2]

theorem pair_random_report {E : Env} {ref : Fl → Fl → Fl} {f : Kind → (w : W) → T w → T w → C (T w)}
    {k : Kind} {w : W} {M : ℕ} (hM : 0 < M) (hlt : M < 2 ^ 63) (hm : M < 2 ^ w.n * 2 ^ w.n)
    (Def Pass : T w → T w → Prop)
    (hdef : ∀ t u, Def t u ↔ ∃ c, checkCase E (.binary ref f) t.toInt u.toInt k w = .ok c)
    (hpass : ∀ t u, Pass t u ↔ checkCase E (.binary ref f) t.toInt u.toInt k w = .ok false) :
    Reports (runType E (.binary ref f) k w M) M
      (fun i : Fin M => Def (xys (E.rand k w) w i).1 (xys (E.rand k w) w i).2)
      (fun i : Fin M => Pass (xys (E.rand k w) w i).1 (xys (E.rand k w) w i).2) := by
  refine run_report (run_random2 (E.rand k w) _ w hM (by omega)) hlt ?_ rfl (Equiv.refl _) _ _ ?_ ?_
  · rw [init_pairs_random hlt hm]; rfl
  · intro i
    obtain ⟨h1, h2⟩ := xys_toInt (E.rand k w) w i
    show Def _ _ ↔ _
    rw [hdef]
    simp only [Equiv.refl_apply, h1, h2]
  · intro i
    obtain ⟨h1, h2⟩ := xys_toInt (E.rand k w) w i
    show Pass _ _ ↔ _
    rw [hpass]
    simp only [Equiv.refl_apply, h1, h2]

theorem safeMul_large {a b M : ℕ} (hb : 0 < b) (hM : M < 2 ^ 63) (hbl : b < 2 ^ 64) (h : M < a * b) :
    ∃ full, safeMul a b = .ok full ∧ ¬ full ≤ M := by
  unfold safeMul
  rw [if_neg (by omega)]
  by_cases hh : a ≥ (2 ^ 64 - 1) / b
  · rw [if_pos hh]; exact ⟨_, rfl, by omega⟩
  · rw [if_neg hh]
    have h1 : a + 1 ≤ (2 ^ 64 - 1) / b := by omega
    have h2 : (a + 1) * b ≤ 2 ^ 64 - 1 := by
      calc (a + 1) * b ≤ (2 ^ 64 - 1) / b * b := Nat.mul_le_mul_right b h1
        _ ≤ _ := Nat.div_mul_le_self _ _
    rw [add_mul] at h2
    refine ⟨_, rfl, ?_⟩
    rw [Nat.mod_eq_of_lt (by omega)]; omega

theorem int_random_report {E : Env} {ref : Fl → ℤ → Fl} {f : Kind → (w : W) → T w → ℤ → C (T w)}
    {cases : List ℤ} (hn : cases.Nodup) (hc : 0 < cases.length) (hcl : cases.length < 2 ^ 64)
    {k : Kind} {w : W} {M : ℕ}
    (hM : 0 < M) (hlt : M < 2 ^ 63) (hm : M < parCount w * cases.length)
    (Def Pass : T w → ℤ → Prop)
    (hdef : ∀ t n, Def t n ↔ ∃ c, checkCase E (.takumInt ref f cases) t.toInt n k w = .ok c)
    (hpass : ∀ t n, Pass t n ↔ checkCase E (.takumInt ref f cases) t.toInt n k w = .ok false) :
    Reports (runType E (.takumInt ref f cases) k w M) M
      (fun i : Fin M => Def (xs (E.rand k w) w (i / cases.length)) (cases.getD (i % cases.length) 0))
      (fun i : Fin M => Pass (xs (E.rand k w) w (i / cases.length)) (cases.getD (i % cases.length) 0)) := by
  refine run_report (run_randomInt (E.rand k w) ref f hn hc w hM (by omega)) hlt ?_ rfl
    (Equiv.refl _) _ _ ?_ ?_
  · obtain ⟨full, h1, h2⟩ := safeMul_large hc hlt hcl hm
    simp only [samplerInit, h1, R_ok_bind, if_neg h2, lut_get hc, Nat.zero_div, Nat.zero_mod]
    rfl
  · intro i
    show Def _ _ ↔ _
    rw [hdef, xs_toInt]; rfl
  · intro i
    show Pass _ _ ↔ _
    rw [hpass, xs_toInt]; rfl

end Takum.Test
