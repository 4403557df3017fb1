import Verif.Lemmas.Cross

/-! # There and back between the two families -/

namespace Takum
open Spec

theorem log_two_lt : Real.log 2 < 0.7 ∧ 0.69 < Real.log 2 := by
  have h1 := Real.log_two_lt_d9
  have h2 := Real.log_two_gt_d9
  constructor <;> norm_num at * <;> linarith

theorem log_lam (x : ℚ) : |Real.log (lam x : ℝ) - x * Real.log 2| ≤ Real.log 2 := by
  have f0 := Int.fract_nonneg x
  have f1 := Int.fract_lt_one x
  have f0' : (0 : ℝ) ≤ ((Int.fract x : ℚ) : ℝ) := by exact_mod_cast f0
  have f1' : ((Int.fract x : ℚ) : ℝ) ≤ 1 := by exact_mod_cast f1.le
  have l2 : 0 < Real.log 2 := Real.log_pos (by norm_num)
  have e : Real.log (lam x : ℝ) = Real.log (1 + ((Int.fract x : ℚ) : ℝ)) + (⌊x⌋ : ℝ) * Real.log 2 := by
    unfold lam
    rw [Rat.cast_mul, Rat.cast_add, Rat.cast_one, Rat.cast_zpow, Rat.cast_ofNat, Real.log_mul (by linarith) (by positivity),
      Real.log_zpow]
  have hx : (x : ℝ) = (⌊x⌋ : ℝ) + ((Int.fract x : ℚ) : ℝ) := by
    have := Int.floor_add_fract x
    have h2 := congrArg (fun q : ℚ => (q : ℝ)) this
    simp only [Rat.cast_add, Rat.cast_intCast] at h2
    exact h2.symm
  rw [e]
  generalize ((Int.fract x : ℚ) : ℝ) = y at *
  rw [hx]
  have g1 : 0 ≤ Real.log (1 + y) := Real.log_nonneg (by linarith)
  have g2 : Real.log (1 + y) ≤ Real.log 2 := Real.log_le_log (by linarith) (by linarith)
  have g3 : y * Real.log 2 ≤ Real.log 2 := by nlinarith
  have g4 : 0 ≤ y * Real.log 2 := by positivity
  rw [abs_le]
  constructor <;> linarith

/-- Moving the position moves the number by at least half as much. -/
theorem lam_add_ge (x : ℚ) {d : ℚ} (hd : 0 ≤ d) : lam x * (1 + d / 2) ≤ lam (x + d) := by
  have f0 := Int.fract_nonneg x
  have f1 := Int.fract_lt_one x
  have pj : (0 : ℚ) < (2 : ℚ) ^ ⌊x⌋ := by positivity
  obtain ⟨m, hm⟩ : ∃ m : ℕ, ⌊x + d⌋ = ⌊x⌋ + m :=
    ⟨(⌊x + d⌋ - ⌊x⌋).toNat, by have := Int.floor_le_floor (by linarith : x ≤ x + d); omega⟩
  have h1 : (1 + (x + d - ⌊x⌋)) * (2 : ℚ) ^ ⌊x⌋ ≤ lam (x + d) := by
    have g0 := Int.fract_nonneg (x + d)
    unfold lam
    rw [hm, zpow_add₀ (by norm_num), zpow_natCast]
    have e : x + d - ⌊x⌋ = m + Int.fract (x + d) := by
      unfold Int.fract; rw [hm]; push_cast; ring
    rw [e]
    have hp : (1 : ℚ) + m ≤ 2 ^ m := by
      have : m + 1 ≤ 2 ^ m := Nat.lt_two_pow_self
      have : ((m + 1 : ℕ) : ℚ) ≤ ((2 ^ m : ℕ) : ℚ) := by exact_mod_cast this
      push_cast at this; linarith
    have m0 : (0 : ℚ) ≤ m := by positivity
    have : 1 + (m + Int.fract (x + d)) ≤ (1 + Int.fract (x + d)) * 2 ^ m := by nlinarith
    nlinarith
  refine le_trans ?_ h1
  unfold lam
  have : x + d - ⌊x⌋ = Int.fract x + d := by unfold Int.fract; ring
  rw [this]
  have : (1 + Int.fract x) * (1 + d / 2) ≤ 1 + (Int.fract x + d) := by nlinarith
  nlinarith

theorem lamInv_step {u v : ℚ} (hu : 0 < u) (huv : u ≤ v) : lamInv v - lamInv u ≤ 2 * ((v - u) / u) := by
  have hv : 0 < v := hu.trans_le huv
  have hd : 0 ≤ lamInv v - lamInv u := by
    have := (lamInv_le_iff hu hv).mpr huv; linarith
  have h := lam_add_ge (lamInv u) hd
  rw [add_sub_cancel, lam_lamInv hu, lam_lamInv hv] at h
  have : (lamInv v - lamInv u) / 2 ≤ (v - u) / u := by
    rw [le_div_iff₀ hu]; nlinarith
  linarith

theorem lamInv_close {u v : ℚ} (hu : 0 < u) (hv : 0 < v) {ε : ℝ} (he : ε ≤ 1 / 4) (h : |(v : ℝ) - u| ≤ ε * u) :
    |((lamInv v : ℚ) : ℝ) - ((lamInv u : ℚ) : ℝ)| ≤ 3 * ε := by
  have ur : (0 : ℝ) < u := by exact_mod_cast hu
  have vr : (0 : ℝ) < v := by exact_mod_cast hv
  have e0 : 0 ≤ ε := by
    by_contra hc
    have := (abs_nonneg _).trans h
    nlinarith
  rw [abs_le] at h
  rcases le_total u v with huv | huv
  · have s := (Rat.cast_le (K := ℝ)).mpr (lamInv_step hu huv)
    have m := (lamInv_le_iff hu hv).mpr huv
    have m' : ((lamInv u : ℚ) : ℝ) ≤ ((lamInv v : ℚ) : ℝ) := by exact_mod_cast m
    push_cast at s
    have : ((v : ℝ) - u) / u ≤ ε := by rw [div_le_iff₀ ur]; linarith [h.2]
    rw [abs_of_nonneg (by linarith)]
    linarith
  · have s := (Rat.cast_le (K := ℝ)).mpr (lamInv_step hv huv)
    have m := (lamInv_le_iff hv hu).mpr huv
    have m' : ((lamInv v : ℚ) : ℝ) ≤ ((lamInv u : ℚ) : ℝ) := by exact_mod_cast m
    push_cast at s
    have : ((u : ℝ) - v) / v ≤ 1.5 * ε := by
      rw [div_le_iff₀ vr]
      have : (u : ℝ) * (1 - ε) ≤ v := by linarith [h.1]
      have : ε * u ≤ 1.5 * ε * v := by nlinarith [mul_nonneg e0 ur.le]
      linarith [h.1]
    rw [abs_of_nonpos (by linarith)]
    linarith

theorem rq_err_any {F : Fmt} (hF : F = b32 ∨ F = b64 ∨ F = x80) (q : ℚ) (hq : |q| ≤ 256) :
    |F.rq q - q| ≤ 256 / 2 ^ F.prec + 1 / 2 ^ 100 := by
  have hp : 1 ≤ F.prec ∧ F.emin ≤ -110 ∧ F.emin + F.prec ≤ -110 := by
    rcases hF with rfl | rfl | rfl <;> decide
  rcases lt_or_ge |q| ((2 : ℚ) ^ (-110 : ℤ)) with h | h
  · have h1 : |F.rq q| ≤ (2 : ℚ) ^ (-110 : ℤ) :=
      F.abs_rq_le hp.1 (Fmt.Rep.zpow hp.1 hp.2.1) h.le
    have h3 := abs_sub (F.rq q) q
    have h4 : (2 : ℚ) ^ (-110 : ℤ) + (2 : ℚ) ^ (-110 : ℤ) ≤ 1 / 2 ^ 100 := by norm_num
    have h5 : (0 : ℚ) ≤ 256 / 2 ^ F.prec := by positivity
    exact h3.trans ((add_le_add h1 h.le).trans (h4.trans (le_add_of_nonneg_left h5)))
  · have hr : ((2 : ℝ) ^ (-110 : ℤ)) ≤ |(q : ℝ)| := by
      have := (Rat.cast_le (K := ℝ)).mpr h
      rw [Rat.cast_zpow, Rat.cast_abs] at this; exact this
    have := rq_real_err (F := F) ((zpow_le_zpow_right₀ (by norm_num) hp.2.2).trans hr)
    rw [Fmt.rq_cast] at this
    have hc : |F.rq q - q| ≤ |q| / 2 ^ F.prec := by
      apply (Rat.cast_le (K := ℝ)).mp; push_cast; exact this
    refine hc.trans ?_
    have : |q| / 2 ^ F.prec ≤ 256 / 2 ^ F.prec := div_le_div_of_nonneg_right hq (by positivity)
    have : (0 : ℚ) ≤ 1 / 2 ^ 100 := by positivity
    linarith

/-- What the rounding of the position costs. -/
def rhoTol : W → ℚ
  | .w8 => 1 / 2 ^ 15
  | _ => 1 / 2 ^ 44

theorem rho_err (A : Src) (hA : A ≠ .f32) (w : W) {x : ℚ} (hx : |x| ≤ 255) : |rho A w x - x| ≤ rhoTol w := by
  have e1 := rq_err_any (F := b32) (Or.inl rfl)
  have e2 := rq_err_any (F := b64) (Or.inr (Or.inl rfl))
  have e3 := rq_err_any (F := x80) (Or.inr (Or.inr rfl))
  have c3 := e3 x (by linarith)
  rw [show b32.prec = 24 from rfl] at e1
  rw [show b64.prec = 53 from rfl] at e2
  rw [show x80.prec = 64 from rfl] at e3 c3
  have b3 : |x80.rq x| ≤ 256 := by
    have := abs_add_le (x80.rq x - x) x
    rw [sub_add_cancel] at this
    norm_num at c3
    linarith
  cases A
  · exact absurd rfl hA
  · cases w
    · exact (e1 x (by linarith)).trans (by norm_num [rhoTol])
    · exact (e2 x (by linarith)).trans (by norm_num [rhoTol])
    · show |x - x| ≤ _; norm_num [rhoTol]
    · show |x - x| ≤ _; norm_num [rhoTol]
  · cases w
    · exact (abs_sub_le _ (x80.rq x) _).trans ((add_le_add (e1 _ b3) c3).trans (by norm_num [rhoTol]))
    · exact (abs_sub_le _ (x80.rq x) _).trans ((add_le_add (e2 _ b3) c3).trans (by norm_num [rhoTol]))
    · exact c3.trans (by norm_num [rhoTol])
    · exact c3.trans (by norm_num [rhoTol])

/-- The smallest distance between takums around `x`. -/
noncomputable def gapOf (w : W) (x : ℚ) : ℝ := max 1 ((|(x : ℝ)| + 1) / 2) / 2 ^ (w.n - 5)

theorem eq_of_close {w : W} {t u : T w} (hs : u.msb = t.msb) (h : (|ell u - ell t| : ℝ) < gapOf w (ell t)) : u = t := by
  by_contra hc
  have g := (Rat.cast_le (K := ℝ)).mpr (ell_gap (w := w) (a := t) (b := u) hs.symm (fun h' => hc h'.symm))
  push_cast at g
  exact absurd (lt_of_le_of_lt g h) (lt_irrefl _)

/-- A float near a linear takum is converted to it. -/
theorem linFrom_near (A : Src) (hA : A ≠ .f32) {w : W} {t : T w} (ht : Regular t) {f : Fl} {z : ℚ} (hf : f.Is z) (hz : z ≠ 0)
    (hi : A.fmt.In z) (hs : decide (z < 0) = t.msb) {η : ℝ} (hη : |((lamInv (|z|) : ℚ) : ℝ) - ell t| ≤ η)
    (hb : |lamInv (|z|)| ≤ 255) (hg : 2 * (η + rhoTol w) + 2 / 2 ^ w.grid < gapOf w (ell t)) : linFrom A w f = .ok t := by
  obtain ⟨l, e, il⟩ := linFrom_spec A w hf hz hi
  rw [e, hs]
  obtain ⟨v, ev, rv, sv, nv⟩ := enc_almost (w := w) t.msb il (rho_rep A w hz hi)
  rw [ev]
  congr 1
  apply eq_of_close sv
  have n1 := (Rat.cast_le (K := ℝ)).mpr (nv t ht rfl)
  have n2 := (Rat.cast_le (K := ℝ)).mpr (rho_err A hA w hb)
  push_cast at n1 n2
  generalize ((rho A w (lamInv (|z|)) : ℚ) : ℝ) = q at n1 n2
  have a1 : |(ell v : ℝ) - ell t| ≤ |(ell v : ℝ) - q| + |q - ell t| := abs_sub_le _ _ _
  have a2 : |q - (ell t : ℝ)| ≤ |q - ((lamInv (|z|) : ℚ) : ℝ)| + |((lamInv (|z|) : ℚ) : ℝ) - ell t| := abs_sub_le _ _ _
  rw [abs_sub_comm (ell t : ℝ) q] at n1
  linarith

/-- A float near a logarithmic takum is converted to it. -/
theorem logFrom_near {L : Libm} (hA' : L.Accurate) (A : Src) (hA : A ≠ .f32) {w : W} (hw : w ≠ .w64) {t : T w} (ht : Regular t)
    {f : Fl} {z : ℚ} (hf : f.Is z) (hz : z ≠ 0) (hi : A.fmt.In z) (hs : decide (z < 0) = t.msb) {η : ℝ} (hη1 : η ≤ 1)
    (hη : |2 * Real.log (|(z : ℝ)|) - ell t| ≤ η) (hg : 4 * (η + 1 / 2 ^ 50) < gapOf w (ell t)) : logFrom L A w f = .ok t := by
  have hF : logF A w = x80 := by cases A <;> cases w <;> first | rfl | exact absurd rfl hA
  have hin := logF_in A w hi
  rw [hF] at hin
  have za : 0 < |z| := abs_pos.mpr hz
  have hin' : x80.In |z| := ⟨hin.1.abs, by rw [abs_abs]; exact hin.2⟩
  obtain ⟨r, r1, r2, r3⟩ := hA'.log x80 (Or.inr rfl) (|z|) za hin'
  rw [Rat.cast_abs, show x80.prec = 64 from rfl] at r3
  have hl255 : |(ell t : ℝ)| ≤ 255 := by
    have := (Rat.cast_le (K := ℝ)).mpr (abs_ell_le t); push_cast at this; exact this
  have hlz : |Real.log (|(z : ℝ)|)| ≤ 128 := by
    have := abs_add_le (2 * Real.log (|(z : ℝ)|) - ell t) (ell t)
    rw [sub_add_cancel, abs_mul, abs_two] at this; linarith
  have hr : |2 * (r : ℝ) - ell t| ≤ η + 1 / 2 ^ 51 := by
    have e1 : 2 * (r : ℝ) - ell t = 2 * ((r : ℝ) - Real.log (|(z : ℝ)|)) + (2 * Real.log (|(z : ℝ)|) - ell t) := by ring
    rw [e1]
    refine (abs_add_le _ _).trans ?_
    rw [abs_mul, abs_two]
    have : |(r : ℝ) - Real.log (|(z : ℝ)|)| ≤ 4 / 2 ^ 64 * 128 := r3.trans (mul_le_mul_of_nonneg_left hlz (by norm_num))
    norm_num at *
    linarith
  have hr100 : |r| ≤ 2 ^ 100 := by
    have : |2 * (r : ℝ)| ≤ 258 := by
      have := abs_add_le (2 * (r : ℝ) - ell t) (ell t)
      rw [sub_add_cancel] at this; norm_num at *; linarith
    have h2 : |2 * r| ≤ 258 := by apply (Rat.cast_le (K := ℝ)).mp; push_cast; exact this
    rw [abs_mul, abs_two] at h2
    linarith [show (258 : ℚ) ≤ 2 ^ 100 by norm_num]
  obtain ⟨l1, l2⟩ := twoLog_is (L := L) (Or.inr rfl) hf hz r1 r2 hr100
  rw [logFrom_eq L A w hf hz, hF, hs]
  obtain ⟨u, eu, ru, su, du⟩ := logEnc_close A hA w (fun _ => hw) ht l1 l2.1 (le_refl |2 * r - ell t|)
  rw [eu]
  congr 1
  apply eq_of_close su
  rw [if_neg hw] at du
  have du' := (Rat.cast_le (K := ℝ)).mpr du
  push_cast at du'
  refine lt_of_le_of_lt du' (lt_of_le_of_lt ?_ hg)
  norm_num at *
  linarith

end Takum
