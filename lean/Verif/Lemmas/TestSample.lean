import Verif.Lemmas.TestCase
import Mathlib.Logic.Equiv.Fin.Basic
import Mathlib.Data.List.Nodup

/-!
# The sequences of samples
-/

namespace Takum.Test
open Takum Spec

theorem parCount_eq {w : W} (hw : w ≠ .w64) : parCount w = 2 ^ w.n := by
  cases w <;> first | rfl | exact absurd rfl hw

theorem pow_small {w : W} (hw : w ≠ .w64) : 2 ^ w.n ≤ 2 ^ 32 := by
  cases w <;> first | decide | exact absurd rfl hw

theorem two_pow_nat (w : W) : (2 : ℤ) ^ w.n = 2 * 2 ^ (w.n - 1) := by
  cases w <;> norm_num

theorem toInt_ofInt_W {w : W} {z : ℤ} (h : InW w z) : (BitVec.ofInt w.n z).toInt = z := by
  have h2 := two_pow_nat w
  have e : ((2 ^ w.n : ℕ) : ℤ) = 2 * 2 ^ (w.n - 1) := by push_cast; exact h2
  obtain ⟨h3, h4⟩ := h
  rw [BitVec.toInt_ofInt]
  apply Int.bmod_eq_of_le <;> rw [e] <;> omega

/-- The order of a sweep: the takums as increasing integers. -/
def sweep (w : W) : Fin (2 ^ w.n) ≃ T w where
  toFun i := BitVec.ofInt w.n (parNar w + i)
  invFun t := ⟨(t.toInt - parNar w).toNat, by
    have h := toInt_InW t
    have h2 := two_pow_nat w
    unfold InW at h
    unfold parNar
    have : ((t.toInt - -2 ^ (w.n - 1)).toNat : ℤ) < (2 ^ w.n : ℕ) := by
      push_cast; omega
    exact_mod_cast this⟩
  left_inv i := by
    apply Fin.ext
    have h2 := two_pow_nat w
    have hi : ((i : ℕ) : ℤ) < 2 ^ w.n := by exact_mod_cast i.isLt
    show ((BitVec.ofInt w.n (parNar w + i)).toInt - parNar w).toNat = i
    rw [toInt_ofInt_W ⟨by unfold parNar; omega, by unfold parNar; omega⟩]
    omega
  right_inv t := by
    have h := toInt_InW t
    show BitVec.ofInt w.n (parNar w + ((t.toInt - parNar w).toNat : ℕ)) = t
    have e : parNar w + ((t.toInt - parNar w).toNat : ℕ) = t.toInt := by
      unfold InW at h; unfold parNar; omega
    rw [e, BitVec.ofInt_toInt]

theorem sweep_toInt (w : W) (i : Fin (2 ^ w.n)) : (sweep w i).toInt = parNar w + i := by
  have h2 := two_pow_nat w
  have hi : ((i : ℕ) : ℤ) < 2 ^ w.n := by exact_mod_cast i.isLt
  exact toInt_ofInt_W ⟨by unfold parNar; omega, by unfold parNar; omega⟩

theorem sweep_max (w : W) (i : ℕ) : parNar w + (i : ℤ) = parMax w ↔ i + 1 = 2 ^ w.n := by
  have h2 := two_pow_nat w
  unfold parNar parMax
  constructor
  · intro h
    have : ((i + 1 : ℕ) : ℤ) = (2 ^ w.n : ℕ) := by push_cast; omega
    exact_mod_cast this
  · intro h
    have : ((i + 1 : ℕ) : ℤ) = (2 ^ w.n : ℕ) := by rw [h]
    push_cast at this; omega

theorem chk_next (w : W) {i : ℕ} (hi : i + 1 < 2 ^ w.n) :
    R.of (chk 64 (parNar w + (i : ℤ) + 1)) = .ok (parNar w + ((i + 1 : ℕ) : ℤ)) := by
  have h2 := two_pow_nat w
  obtain ⟨h3, -, -⟩ := two_pow_W w
  have hi' : ((i : ℕ) : ℤ) + 1 < 2 ^ w.n := by exact_mod_cast hi
  unfold parNar
  rw [chk_ok (by norm_num at h3 ⊢; omega) (by norm_num at h3 ⊢; omega)]
  push_cast
  show Except.ok _ = Except.ok _
  congr 1; ring

/-- Blocks whose samples are single takums. -/
def Block.OneD : Block → Prop
  | .roundtrip _ | .unary _ _ | .uint8 _ _ => True
  | _ => False

theorem init_full {blk : Block} (hb : blk.OneD) {w : W} {maximum : ℕ} (h : parCount w ≤ maximum) :
    samplerInit blk w maximum = .ok ⟨.takumFull, parNar w, parNar w, 1, parCount w, 0⟩ := by
  cases blk <;> simp_all [samplerInit, Block.OneD]

theorem init_random {blk : Block} (hb : blk.OneD) {w : W} {maximum : ℕ} (h : maximum < parCount w) :
    samplerInit blk w maximum = .ok ⟨.takumRandom, 0, parNar w, 1, maximum, 0⟩ := by
  have : ¬ parCount w ≤ maximum := by omega
  cases blk <;> simp_all [samplerInit, Block.OneD]

theorem run_full (rand : ℕ → ℤ) (blk : Block) {w : W} (hw : w ≠ .w64) :
    Run rand blk w (fun i => ⟨.takumFull, parNar w + (i : ℤ), parNar w, i + 1, parCount w, 0⟩) (2 ^ w.n) := by
  have hlt := pow_small hw
  refine ⟨by positivity, fun i hi => ?_, ?_⟩
  · have hne : ¬ (parNar w + (i : ℤ) = parMax w) := by
      rw [sweep_max w]; omega
    simp only [samplerNext, if_neg hne]
    rw [chk_next w hi, R_ok_bind]
    show Except.ok _ = _
    rw [Nat.mod_eq_of_lt (by omega)]
  · have hp : 0 < 2 ^ w.n := by positivity
    have he : parNar w + ((2 ^ w.n - 1 : ℕ) : ℤ) = parMax w := by
      rw [sweep_max w]; omega
    simp only [samplerNext, if_pos he]

/-- The tests of single takums, in full. -/
theorem full_report {E : Env} {blk : Block} (hb : blk.OneD) {k : Kind} {w : W} (hw : w ≠ .w64)
    {maximum : ℕ} (hm : 2 ^ w.n ≤ maximum) (Def Pass : T w → Prop)
    (hdef : ∀ t, Def t ↔ ∃ c, checkCase E blk t.toInt (parNar w) k w = .ok c)
    (hpass : ∀ t, Pass t ↔ checkCase E blk t.toInt (parNar w) k w = .ok false) :
    Reports (runType E blk k w maximum) (2 ^ w.n) Def Pass := by
  have hlt := pow_small hw
  refine run_report (run_full (E.rand k w) blk hw) (by omega) ?_ ?_ (sweep w) Def Pass ?_ ?_
  · rw [init_full hb (by rw [parCount_eq hw]; exact hm)]; simp
  · exact parCount_eq hw
  · intro i; rw [hdef, sweep_toInt]
  · intro i; rw [hpass, sweep_toInt]

/-! ## Products -/

theorem safeMul_eq {a b : ℕ} (hb : 0 < b) (ha : 0 < a) (h : a * b < 2 ^ 63) :
    safeMul a b = .ok (a * b) := by
  unfold safeMul
  rw [if_neg (by omega)]
  have hle : b ≤ a * b := Nat.le_mul_of_pos_left b ha
  have hh : ¬ a ≥ (2 ^ 64 - 1) / b := by
    intro hh
    have h1 := Nat.lt_div_mul_add (a := 2 ^ 64 - 1) hb
    have h2 : (2 ^ 64 - 1) / b * b ≤ a * b := Nat.mul_le_mul_right b hh
    omega
  rw [if_neg hh, Nat.mod_eq_of_lt (by omega)]

theorem step_carry {c i : ℕ} (h : i % c + 1 = c) : (i + 1) / c = i / c + 1 ∧ (i + 1) % c = 0 := by
  have hp : 0 < c := by omega
  have e : i + 1 = c * (i / c + 1) := by
    have := Nat.div_add_mod i c
    rw [mul_add]; omega
  constructor
  · rw [e, Nat.mul_div_cancel_left _ hp]
  · rw [e, Nat.mul_mod_right]

theorem step_nocarry {c i : ℕ} (h : i % c + 1 < c) : (i + 1) / c = i / c ∧ (i + 1) % c = i % c + 1 := by
  have hp : 0 < c := by omega
  have e : i + 1 = c * (i / c) + (i % c + 1) := by
    have := Nat.div_add_mod i c
    omega
  constructor
  · conv_lhs => rw [e]
    rw [Nat.mul_add_div hp, Nat.div_eq_of_lt h, add_zero]
  · conv_lhs => rw [e]
    rw [Nat.mul_add_mod, Nat.mod_eq_of_lt h]

theorem step_bound {N c i : ℕ} (hi : i + 1 < N * c) (h : i % c + 1 = c) : i / c + 1 < N := by
  have e := (step_carry h).1
  have hp : 0 < c := by omega
  have h0 := (step_carry h).2
  have h1 : i + 1 = c * ((i + 1) / c) := by
    have := Nat.div_add_mod (i + 1) c
    omega
  rw [e] at h1
  rw [h1, mul_comm] at hi
  exact Nat.lt_of_mul_lt_mul_right hi

theorem last_divmod {N c : ℕ} (hN : 0 < N) (hc : 0 < c) :
    (N * c - 1) / c = N - 1 ∧ (N * c - 1) % c = c - 1 := by
  have e : N * c - 1 = c * (N - 1) + (c - 1) := by
    obtain ⟨m, rfl⟩ : ∃ m, N = m + 1 := ⟨N - 1, by omega⟩
    rw [Nat.add_sub_cancel, add_mul, mul_comm m c]
    omega
  rw [e]
  refine ⟨?_, ?_⟩
  · rw [Nat.mul_add_div hc, Nat.div_eq_of_lt (by omega), add_zero]
  · rw [Nat.mul_add_mod, Nat.mod_eq_of_lt (by omega)]

theorem run_pairs (rand : ℕ → ℤ) (blk : Block) (w : W) (hlt : 2 ^ w.n * 2 ^ w.n < 2 ^ 64) (tg : ℕ) :
    Run rand blk w (fun i => ⟨.takumTakumFull, parNar w + ((i / 2 ^ w.n : ℕ) : ℤ),
      parNar w + ((i % 2 ^ w.n : ℕ) : ℤ), i + 1, tg, 0⟩) (2 ^ w.n * 2 ^ w.n) := by
  have hp : 0 < 2 ^ w.n := by positivity
  refine ⟨by positivity, fun i hi => ?_, ?_⟩
  · have hr : i % 2 ^ w.n < 2 ^ w.n := Nat.mod_lt _ hp
    have hcur : (i + 1 + 1) % 2 ^ 64 = i + 1 + 1 := Nat.mod_eq_of_lt (by omega)
    by_cases hy : i % 2 ^ w.n + 1 = 2 ^ w.n
    · have e1 : parNar w + ((i % 2 ^ w.n : ℕ) : ℤ) = parMax w := by rw [sweep_max w]; exact hy
      have hx := step_bound hi hy
      have e2 : ¬ (parNar w + ((i / 2 ^ w.n : ℕ) : ℤ) = parMax w) := by rw [sweep_max w]; omega
      obtain ⟨f1, f2⟩ := step_carry hy
      simp only [samplerNext, if_pos e1, if_neg e2, chk_next w hx, R_ok_bind, f1, f2, hcur]
      simp; rfl
    · have e1 : ¬ (parNar w + ((i % 2 ^ w.n : ℕ) : ℤ) = parMax w) := by rw [sweep_max w]; exact hy
      have hy' : i % 2 ^ w.n + 1 < 2 ^ w.n := by omega
      obtain ⟨f1, f2⟩ := step_nocarry hy'
      simp only [samplerNext, if_neg e1, chk_next w hy', R_ok_bind, f1, f2, hcur]
      rfl
  · obtain ⟨f1, f2⟩ := last_divmod hp hp
    have e1 : parNar w + (((2 ^ w.n * 2 ^ w.n - 1) % 2 ^ w.n : ℕ) : ℤ) = parMax w := by
      rw [f2, sweep_max w]; omega
    have e2 : parNar w + (((2 ^ w.n * 2 ^ w.n - 1) / 2 ^ w.n : ℕ) : ℤ) = parMax w := by
      rw [f1, sweep_max w]; omega
    simp only [samplerNext, if_pos e1, if_pos e2]

theorem caseIndex_get {cases : List ℤ} (hn : cases.Nodup) {j : ℕ} (hj : j < cases.length) :
    caseIndex cases (cases.getD j 0) = j := by
  unfold caseIndex
  rw [List.getD_eq_getElem _ _ hj]
  exact hn.idxOf_getElem j hj

theorem lut_get {cases : List ℤ} {j : ℕ} (hj : j < cases.length) :
    R.of (lut cases j) = .ok (cases.getD j 0) := by
  unfold lut
  rw [List.getElem?_eq_getElem hj, List.getD_eq_getElem _ _ hj]; rfl

theorem run_ints (rand : ℕ → ℤ) (ref : Fl → ℤ → Fl) (f : Kind → (w : W) → T w → ℤ → C (T w))
    {cases : List ℤ} (hn : cases.Nodup) (hc : 0 < cases.length) (w : W)
    (hlt : 2 ^ w.n * cases.length < 2 ^ 64) (tg : ℕ) :
    Run rand (.takumInt ref f cases) w (fun i => ⟨.takumIntFull,
      parNar w + ((i / cases.length : ℕ) : ℤ), cases.getD (i % cases.length) 0, i + 1, tg, 0⟩)
      (2 ^ w.n * cases.length) := by
  have hp : 0 < 2 ^ w.n := by positivity
  refine ⟨by positivity, fun i hi => ?_, ?_⟩
  · have hr : i % cases.length < cases.length := Nat.mod_lt _ hc
    have hcur : (i + 1 + 1) % 2 ^ 64 = i + 1 + 1 := Nat.mod_eq_of_lt (by omega)
    have hne : ¬ (i % cases.length = cases.length) := by omega
    by_cases hy : i % cases.length + 1 = cases.length
    · have e1 : i % cases.length = cases.length - 1 := by omega
      have hx := step_bound hi hy
      have e2 : ¬ (parNar w + ((i / cases.length : ℕ) : ℤ) = parMax w) := by rw [sweep_max w]; omega
      obtain ⟨f1, f2⟩ := step_carry hy
      simp only [samplerNext, Block.cases, caseIndex_get hn hr, if_neg hne, if_pos e1, if_neg e2,
        chk_next w hx, R_ok_bind, f1, f2, hcur, lut_get hc]
      rfl
    · have e1 : ¬ (i % cases.length = cases.length - 1) := by omega
      have hy' : i % cases.length + 1 < cases.length := by omega
      obtain ⟨f1, f2⟩ := step_nocarry hy'
      simp only [samplerNext, Block.cases, caseIndex_get hn hr, if_neg hne, if_neg e1,
        R_ok_bind, f1, f2, hcur, lut_get hy']
      rfl
  · obtain ⟨f1, f2⟩ := last_divmod hp hc
    have hr : cases.length - 1 < cases.length := by omega
    have e2 : parNar w + ((2 ^ w.n - 1 : ℕ) : ℤ) = parMax w := by
      rw [sweep_max w]; omega
    have hne : ¬ (cases.length - 1 = cases.length) := by omega
    simp only [samplerNext, Block.cases, f1, f2, caseIndex_get hn hr, if_neg hne, if_true, if_pos e2]

/-- The order of a sweep over pairs. -/
def sweep2 (w : W) (c : ℕ) : Fin (2 ^ w.n * c) ≃ T w × Fin c :=
  finProdFinEquiv.symm.trans ((sweep w).prodCongr (Equiv.refl _))

theorem sweep2_apply (w : W) (c : ℕ) (i : Fin (2 ^ w.n * c)) :
    (sweep2 w c i).1.toInt = parNar w + (((i : ℕ) / c : ℕ) : ℤ) ∧
      ((sweep2 w c i).2 : ℕ) = (i : ℕ) % c := by
  constructor
  · exact sweep_toInt w _
  · rfl

/-- The tests of pairs of takums, in full. -/
theorem pair_report {E : Env} {ref : Fl → Fl → Fl} {f : Kind → (w : W) → T w → T w → C (T w)}
    {k : Kind} {w : W} (hw : w ≠ .w64) {maximum : ℕ} (hm : 2 ^ w.n * 2 ^ w.n ≤ maximum)
    (hlt : 2 ^ w.n * 2 ^ w.n < 2 ^ 63) (Def Pass : T w × T w → Prop)
    (hdef : ∀ t u, Def (t, u) ↔ ∃ c, checkCase E (.binary ref f) t.toInt u.toInt k w = .ok c)
    (hpass : ∀ t u, Pass (t, u) ↔ checkCase E (.binary ref f) t.toInt u.toInt k w = .ok false) :
    Reports (runType E (.binary ref f) k w maximum) (2 ^ w.n * 2 ^ w.n) Def Pass := by
  have hp : 0 < 2 ^ w.n := by positivity
  refine run_report (run_pairs (E.rand k w) _ w (by omega) (2 ^ w.n * 2 ^ w.n)) hlt ?_ rfl
    ((sweep2 w (2 ^ w.n)).trans ((Equiv.refl _).prodCongr (sweep w))) Def Pass ?_ ?_
  · simp only [samplerInit, parCount_eq hw, safeMul_eq hp hp hlt, R_ok_bind, if_pos hm]
    simp
  · intro i
    obtain ⟨h1, h2⟩ := sweep2_apply w (2 ^ w.n) i
    show Def ((sweep2 w _ i).1, sweep w (sweep2 w _ i).2) ↔ _
    rw [hdef, h1, sweep_toInt, h2]
  · intro i
    obtain ⟨h1, h2⟩ := sweep2_apply w (2 ^ w.n) i
    show Pass ((sweep2 w _ i).1, sweep w (sweep2 w _ i).2) ↔ _
    rw [hpass, h1, sweep_toInt, h2]

/-- The tests of a takum and an integer, in full. -/
theorem int_report {E : Env} {ref : Fl → ℤ → Fl} {f : Kind → (w : W) → T w → ℤ → C (T w)}
    {cases : List ℤ} (hn : cases.Nodup) (hc : 0 < cases.length) {k : Kind} {w : W} (hw : w ≠ .w64)
    {maximum : ℕ} (hm : 2 ^ w.n * cases.length ≤ maximum) (hlt : 2 ^ w.n * cases.length < 2 ^ 63)
    (Def Pass : T w × Fin cases.length → Prop)
    (hdef : ∀ t j, Def (t, j) ↔ ∃ c, checkCase E (.takumInt ref f cases) t.toInt cases[j] k w = .ok c)
    (hpass : ∀ t j, Pass (t, j) ↔
      checkCase E (.takumInt ref f cases) t.toInt cases[j] k w = .ok false) :
    Reports (runType E (.takumInt ref f cases) k w maximum) (2 ^ w.n * cases.length) Def Pass := by
  have hp : 0 < 2 ^ w.n := by positivity
  refine run_report (run_ints (E.rand k w) ref f hn hc w (by omega) (2 ^ w.n * cases.length)) hlt ?_ rfl
    (sweep2 w cases.length) Def Pass ?_ ?_
  · simp only [samplerInit, parCount_eq hw, safeMul_eq hc hp hlt, R_ok_bind, if_pos hm, lut_get hc]
    simp
  · intro i
    obtain ⟨h1, h2⟩ := sweep2_apply w cases.length i
    have := hdef (sweep2 w _ i).1 (sweep2 w _ i).2
    rw [h1] at this
    rw [← Prod.mk.eta (p := sweep2 w cases.length i), this]
    have e : cases[(sweep2 w cases.length i).2] = cases.getD ((i : ℕ) % cases.length) 0 := by
      rw [List.getD_eq_getElem _ _ (Nat.mod_lt _ hc)]
      simp only [Fin.getElem_fin, h2]
    rw [e]
  · intro i
    obtain ⟨h1, h2⟩ := sweep2_apply w cases.length i
    have := hpass (sweep2 w _ i).1 (sweep2 w _ i).2
    rw [h1] at this
    rw [← Prod.mk.eta (p := sweep2 w cases.length i), this]
    have e : cases[(sweep2 w cases.length i).2] = cases.getD ((i : ℕ) % cases.length) 0 := by
      rw [List.getD_eq_getElem _ _ (Nat.mod_lt _ hc)]
      simp only [Fin.getElem_fin, h2]
    rw [e]

end Takum.Test
