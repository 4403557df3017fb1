import Verif.Lemmas.MonoElem
import Verif.Lemmas.ElemExp

/-! # The calls are monotone -/

namespace Takum
open Spec

/-- Two numbers of the type that are ordered, or beyond the range of the takums on the same side. -/
def Cl (F : Fmt) (f g : Fl) : Prop := ∃ a b, f.Is a ∧ g.Is b ∧ F.In a ∧ F.In b ∧ ClLe a b

theorem dblMax {F : Fmt} (hF : F = b64 ∨ F = x80) : ∃ M : ℚ, DBL_MAX = .num M ∧ 0 < M ∧ (2 : ℚ) ^ (300 : ℤ) ≤ M ∧ F.In M := by
  obtain ⟨M, e, h, i⟩ := dbl_max' hF
  have h' : (2 : ℚ) ^ (300 : ℤ) ≤ (2 : ℚ) ^ (990 : ℤ) := zpow_le_zpow_right₀ (by norm_num) (by norm_num)
  have p : (0 : ℚ) < (2 : ℚ) ^ (300 : ℤ) := by positivity
  exact ⟨M, e, p.trans_le (h'.trans h), h'.trans h, i⟩

theorem dblMin {F : Fmt} (hF : F = b64 ∨ F = x80) : ∃ m : ℚ, DBL_MIN = .num m ∧ 0 < m ∧ m ≤ (2 : ℚ) ^ (-300 : ℤ) ∧ F.In m := by
  obtain ⟨m, e, h0, h, i⟩ := dbl_min' hF
  exact ⟨m, e, h0, h.trans (zpow_le_zpow_right₀ (by norm_num) (by norm_num)), i⟩

theorem ClLe.top {M : ℚ} (hM : (2 : ℚ) ^ (300 : ℤ) ≤ M) (a : ℚ) : ClLe a M := by
  rcases le_total a M with h | h
  · exact Or.inl h
  · exact Or.inr (Or.inl ⟨hM.trans h, hM⟩)

theorem ClLe.bot {M : ℚ} (hM : (2 : ℚ) ^ (300 : ℤ) ≤ M) (a : ℚ) : ClLe (-M) a := by
  rcases le_total (-M) a with h | h
  · exact Or.inl h
  · exact Or.inr (Or.inr (Or.inl ⟨neg_le_neg hM, h.trans (neg_le_neg hM)⟩))

theorem ClLe.neg {a b : ℚ} (h : ClLe a b) : ClLe (-b) (-a) := by
  rcases h with h | ⟨h1, h2⟩ | ⟨h1, h2⟩ | ⟨h1, h2, h3, h4⟩ | ⟨h1, h2, h3, h4⟩
  · exact Or.inl (neg_le_neg h)
  · exact Or.inr (Or.inr (Or.inl ⟨neg_le_neg h2, neg_le_neg h1⟩))
  · exact Or.inr (Or.inl ⟨le_neg.mpr h2, le_neg.mpr h1⟩)
  · exact Or.inr (Or.inr (Or.inr (Or.inr ⟨neg_neg_of_pos h3, neg_le_neg h4, neg_neg_of_pos h1, neg_le_neg h2⟩)))
  · exact Or.inr (Or.inr (Or.inr (Or.inl ⟨neg_pos.mpr h3, neg_le.mpr h4, neg_pos.mpr h1, neg_le.mpr h2⟩)))

theorem in_up {F : Fmt} (hF : F = b64 ∨ F = x80) {q : ℚ} (h : b64.In q) : F.In q := by
  rcases hF with rfl | rfl
  · exact h
  · exact Fmt.b64_x80 h

theorem in_of_is {F : Fmt} {x : Fl} {a : ℚ} (h : x.Is a) (hx : x.In F) : F.In a := by
  rcases h.cases with ⟨-, rfl⟩ | ⟨rfl, -⟩
  · exact hx.2
  · exact ⟨Fmt.Rep.zero _, by rw [abs_zero]; positivity⟩

/-- Every infinity replaced by the number of its sign. -/
theorem cap_cl {F : Fmt} (hF : F = b64 ∨ F = x80) {x y x' y' : Fl} (hx : x.In F) (hy : y.In F) (h : Fl.le x y = true) :
    Cl F (fixSinh x' x) (fixSinh y' y) := by
  obtain ⟨M, e, Mp, hM, iM⟩ := dblMax hF
  have M0 : M ≠ 0 := Mp.ne'
  have c1 : ∀ x' s, fixSinh x' (.inf s) = if s then .num (-M) else .num M := by
    intro x' s; cases s <;> simp [fixSinh, Fl.isinf, Fl.le, Fl.lt, Fl.eq, e, Fl.neg]
  have c2 : ∀ x' {x : Fl} {a : ℚ}, x.Is a → fixSinh x' x = x := by
    intro x' x a h; simp [fixSinh, h.isinf]
  have iM' : F.In (-M) := In_neg iM
  have cs : ∀ x' {x : Fl}, x ≠ .num 0 → x ≠ .nan → x.In F → (x = .inf true ∧ (fixSinh x' x).Is (-M)) ∨ (x = .inf false ∧ (fixSinh x' x).Is M) ∨
      ∃ a, x.Is a ∧ F.In a ∧ (fixSinh x' x).Is a := by
    intro x' x h0 hn hi
    cases x with
    | nan => exact absurd rfl hn
    | inf s =>
      rw [c1]
      cases s
      · exact Or.inr (Or.inl ⟨rfl, Fl.Is.num M0⟩)
      · exact Or.inl ⟨rfl, Fl.Is.num (neg_ne_zero.mpr M0)⟩
    | zero s => exact Or.inr (Or.inr ⟨0, Fl.Is.zero s, in_of_is (Fl.Is.zero s) hi, by rw [c2 x' (Fl.Is.zero s)]; exact Fl.Is.zero s⟩)
    | num q =>
      have := Fl.Is.num hi.1
      exact Or.inr (Or.inr ⟨q, this, hi.2, by rw [c2 x' this]; exact this⟩)
  obtain ⟨n1, n2, h⟩ := (Fl.le_iff hx.ne hy.ne).mp h
  have big := ClLe.bot hM
  have big' := ClLe.top hM
  rcases h with rfl | rfl | ⟨a, b, ha, hb, h⟩
  · rcases cs x' hx.ne n1 hx with ⟨-, i⟩ | ⟨h, -⟩ | ⟨a, h, -⟩
    · rcases cs y' hy.ne n2 hy with ⟨-, j⟩ | ⟨-, j⟩ | ⟨a, -, ia, j⟩
      · exact ⟨_, _, i, j, iM', iM', big _⟩
      · exact ⟨_, _, i, j, iM', iM, big _⟩
      · exact ⟨_, _, i, j, iM', ia, big _⟩
    · cases h
    · have := h.isfinite; cases this
  · rcases cs y' hy.ne n2 hy with ⟨h, -⟩ | ⟨-, j⟩ | ⟨a, h, -⟩
    · cases h
    · rcases cs x' hx.ne n1 hx with ⟨-, i⟩ | ⟨-, i⟩ | ⟨a, -, ia, i⟩
      · exact ⟨_, _, i, j, iM', iM, big _⟩
      · exact ⟨_, _, i, j, iM, iM, big' _⟩
      · exact ⟨_, _, i, j, ia, iM, big' _⟩
    · have := h.isfinite; cases this
  · rw [c2 _ ha, c2 _ hb]
    exact ⟨a, b, ha, hb, in_of_is ha hx, in_of_is hb hy, Or.inl h⟩

/-- The fixers other than those of results 0 agree with `fixSinh` where the result is finite. -/
theorem fix_cap {x' x : Fl} (f : Fl → Fl → Fl) (hf : f = noFix ∨ f = fixLog ∨ f = fixSinh ∨ (f = fixInf ∧ x ≠ .inf true)) (h : (f x' x).isfinite = true) :
    f x' x = fixSinh x' x := by
  rcases hf with rfl | rfl | rfl | ⟨rfl, hi⟩
  · cases x with
    | inf s => cases h
    | _ => rfl
  · cases x with
    | inf s =>
      cases s
      · rfl
      · cases h
    | _ => rfl
  · rfl
  · cases x with
    | inf s =>
      cases s
      · rfl
      · exact absurd rfl hi
    | _ => rfl

/-- Zero replaced by the smallest number, infinity by the largest. -/
theorem exp_cl {F : Fmt} (hF : F = b64 ∨ F = x80) {x y x' y' : Fl} (hx : x.In F) (hy : y.In F) (h : Fl.le x y = true)
    (h0 : Fl.le (.zero false) x = true) : Cl F (fixExp x' x) (fixExp y' y) := by
  obtain ⟨M, eM, Mp, hM, iM⟩ := dblMax hF
  obtain ⟨m, em, m0, hm, im⟩ := dblMin hF
  have M0 : M ≠ 0 := Mp.ne'
  have z0 : ∀ s, Fl.zero s ≠ .num 0 := by simp
  have nonneg : ∀ {x : Fl}, x.In F → Fl.le (.zero false) x = true → (∃ s, x = .zero s) ∨ x = .inf false ∨ ∃ a, 0 < a ∧ x = .num a ∧ F.In a := by
    intro x hi h
    cases x with
    | nan => cases h
    | inf s =>
      cases s
      · exact Or.inr (Or.inl rfl)
      · cases h
    | zero s => exact Or.inl ⟨s, rfl⟩
    | num q =>
      rw [Fl.le_is (Fl.Is.zero false) (Fl.Is.num hi.1)] at h
      exact Or.inr (Or.inr ⟨q, lt_of_le_of_ne h hi.1.symm, rfl, hi.2⟩)
  have fz : ∀ x' s, (fixExp x' (.zero s)) = .num m := by intro x' s; rw [← em]; rfl
  have fi : ∀ x', (fixExp x' (.inf false)) = .num M := by intro x'; rw [← eM]; rfl
  have fn : ∀ x' {a : ℚ}, 0 < a → fixExp x' (.num a) = .num a := by
    intro x' a ha
    have : Fl.eq (.num a) (.zero false) = false := by simp [Fl.eq, Fl.toQ, ha.ne']
    simp [fixExp, this, Fl.isinf]
  obtain ⟨n1, n2, hh⟩ := (Fl.le_iff hx.ne hy.ne).mp h
  rcases nonneg hx h0 with ⟨s, rfl⟩ | rfl | ⟨a, a0, rfl, ia⟩
  · rw [fz]
    have hy0 : Fl.le (.zero false) y = true := by
      rcases hh with hh | rfl | ⟨a, b, ha, hb, hh⟩
      · cases hh
      · rfl
      · rw [Fl.le_is (Fl.Is.zero false) hb, ← ha.unique (Fl.Is.zero s)]; exact hh
    rcases nonneg hy hy0 with ⟨s', rfl⟩ | rfl | ⟨b, b0, rfl, ib⟩
    · rw [fz]; exact ⟨m, m, Fl.Is.num m0.ne', Fl.Is.num m0.ne', im, im, Or.inl le_rfl⟩
    · rw [fi]; exact ⟨m, M, Fl.Is.num m0.ne', Fl.Is.num M0, im, iM, ClLe.top hM _⟩
    · rw [fn _ b0]
      refine ⟨m, b, Fl.Is.num m0.ne', Fl.Is.num b0.ne', im, ib, ?_⟩
      rcases le_total m b with h | h
      · exact Or.inl h
      · exact Or.inr (Or.inr (Or.inr (Or.inl ⟨m0, hm, b0, h.trans hm⟩)))
  · rcases hh with hh | rfl | ⟨a, b, ha, hb, hh⟩
    · cases hh
    · rw [fi, fi]; exact ⟨M, M, Fl.Is.num M0, Fl.Is.num M0, iM, iM, Or.inl le_rfl⟩
    · have := ha.isfinite; cases this
  · rw [fn _ a0]
    rcases hh with hh | rfl | ⟨a', b, ha, hb, hh⟩
    · cases hh
    · rw [fi]
      exact ⟨a, M, Fl.Is.num a0.ne', Fl.Is.num M0, ia, iM, ClLe.top hM _⟩
    · have e := ha.unique (Fl.Is.num a0.ne')
      subst e
      have b0 : 0 < b := lt_of_lt_of_le a0 hh
      have eb := hb.eq_num b0.ne'
      subst eb
      rw [fn _ b0]
      exact ⟨a', b, ha, hb, ia, hy.2, Or.inl hh⟩

theorem Cl.neg {F : Fmt} {f g : Fl} (h : Cl F f g) : Cl F g.neg f.neg := by
  obtain ⟨a, b, ha, hb, ia, ib, h⟩ := h
  exact ⟨-b, -a, hb.neg, ha.neg, In_neg ib, In_neg ia, h.neg⟩

theorem Fl.FinIn.is {F : Fmt} {x : Fl} (h : x.FinIn F) : ∃ q, x.Is q ∧ F.In q := by
  obtain ⟨h1, h2⟩ := h
  cases x with
  | nan => cases h2
  | inf s => cases h2
  | zero s => exact ⟨0, Fl.Is.zero s, in_of_is (Fl.Is.zero s) trivial⟩
  | num q => exact ⟨q, Fl.Is.num h1.1, h1.2⟩

theorem le_of_sgn {F : Fmt} {r : Fl} (h : r ≠ .nan ∧ r.sgn = false ∧ r.In F) : Fl.le (.zero false) r = true := by
  obtain ⟨h1, h2, h3⟩ := h
  cases r with
  | nan => exact absurd rfl h1
  | inf s => cases s <;> first | rfl | cases h2
  | zero s => rfl
  | num q =>
    rw [Fl.le_is (Fl.Is.zero false) (Fl.Is.num h3.1)]
    exact not_lt.mp (of_decide_eq_false h2)

theorem ne_of_low {q : ℚ} {r : Fl} (h : Fl.le (.num q) r = true) : r ≠ .inf true := by
  rintro rfl; cases h

theorem sub_one_low {r : Fl} (hr : r ≠ .num 0) (h : Fl.le (.zero false) r = true) : Fl.le (.num (-1)) (Fl.sub x80 r (.num 1)) = true := by
  have := Fl.add_num_le X3 (p := -1) (by norm_num) (by simp) hr h
  rwa [show Fl.add x80 (.zero false) (.num (-1)) = .num (-1) by decide +kernel] at this

theorem cast_low {r : Fl} (hr : r ≠ .num 0) (h : Fl.le (.num (-1)) r = true) : Fl.le (.num (-1)) (Fl.cast b64 r) = true := by
  have := Fl.cast_le B3 (by simp) hr h
  rwa [show Fl.cast b64 (.num (-1)) = .num (-1) by decide +kernel] at this

theorem cast_nonneg {r : Fl} (hr : r ≠ .num 0) (h : Fl.le (.zero false) r = true) : Fl.le (.zero false) (Fl.cast b64 r) = true :=
  Fl.cast_le B3 (by simp) hr h

/-- The functions whose infinity is replaced whatever its sign are not `-∞`. -/
theorem ev_low {L : Libm} (hL : L.Conforming) (hM : L.Monotone) {F : Fmt} (hF : F = b64 ∨ F = x80) {u : UFun} (hu : u.fix = fixInf) {x : Fl}
    (hx : x.FinIn F) : u.ev L F x ≠ .inf true := by
  have hx0 : x ≠ .num 0 := hx.1.ne
  have hxx : x.FinIn x80 := by
    rcases hF with rfl | rfl
    · exact fin_up hx
    · exact hx
  have e2 := hL.exps.exp2 x80 X2 x hx.2 hx0
  have e10 := hL.exps.pow10 x hx.2 hx0
  have m2 := sub_one_low e2.2.2.ne (le_of_sgn e2)
  have m10 := sub_one_low e10.2.2.ne (le_of_sgn e10)
  obtain ⟨q, hq, iq⟩ := hx.is
  have ach : L.acosh F x ≠ .inf true := by
    intro h
    rcases lt_or_ge q 1 with h1 | h1
    · rw [hL.inverses.acosh_out F hF x q hq h1] at h; cases h
    · obtain ⟨r, hr, -⟩ := hL.inverses.acosh F hF x q hq iq h1
      rw [h] at hr; have := hr.isfinite; cases this
  have ch : L.cosh F x ≠ .inf true := by
    intro h
    rcases hL.hyperbolics.cosh F hF x q hq iq with e | ⟨z, e, -⟩ <;> rw [h] at e <;> cases e
  have em : L.expm1 F x ≠ .inf true := ne_of_low (hM.expm1_low F hF x hx)
  have ty : ∀ y, (Fl.sub x80 y (.num 1)) ≠ .num 0 := fun y => (Fl.add_type X3 (x := y) (y := .num (-1))).ne
  have fixes : ∀ f : Fl → Fl → Fl, f = fixInf → f (.num 1) (.inf true) = DBL_MAX := by rintro f rfl; rfl
  have hu' := fixes _ hu
  have hd : DBL_MAX ≠ .inf true ∧ DBL_MAX ≠ DBL_MAX.neg ∧ DBL_MAX ≠ DBL_MIN := by decide +kernel
  rcases hF with rfl | rfl
  · rw [ev_b64]
    cases u with
    | ten_raised_minus_1 => exact ne_of_low (cast_low (ty _) m10)
    | two_raised_minus_1 => exact ne_of_low (cast_low (ty _) m2)
    | exp_minus_1 => exact em
    | cosh => exact ch
    | arcosh => exact ach
    | _ => exfalso; first | exact hd.1 hu'.symm | exact hd.2.1 hu'.symm | (have := congrFun (congrFun hu (.num 1)) (.zero false); revert this; decide +kernel)
  · rw [ev_x80]
    cases u with
    | ten_raised_minus_1 => exact ne_of_low m10
    | two_raised_minus_1 => exact ne_of_low m2
    | exp_minus_1 => exact em
    | cosh => exact ch
    | arcosh => exact ach
    | _ => exfalso; first | exact hd.1 hu'.symm | exact hd.2.1 hu'.symm | (have := congrFun (congrFun hu (.num 1)) (.zero false); revert this; decide +kernel)

theorem ev_nonneg {L : Libm} (hL : L.Conforming) {F : Fmt} (hF : F = b64 ∨ F = x80) {u : UFun}
    (hu : u = .ten_raised ∨ u = .two_raised ∨ u = .exp ∨ u = .sech) {x : Fl} (hx : x.FinIn F) : Fl.le (.zero false) (u.ev L F x) = true := by
  have hx0 : x ≠ .num 0 := hx.1.ne
  have e10 := hL.exps.pow10 x hx.2 hx0
  obtain ⟨q, hq, iq⟩ := hx.is
  have sech : Fl.le (.zero false) (Fl.div F (.num 1) (L.cosh F x)) = true := by
    rcases hL.hyperbolics.cosh F hF x q hq iq with e | ⟨z, e, -, h1⟩
    · rw [e]; rfl
    · rw [e]
      have z0 : z ≠ 0 := by linarith
      rw [show Fl.div F (.num 1) (.num z) = Fl.round F _ (1 / z) from Fl.div_eq (a := 1) (Fl.Is.num (by norm_num)) (Fl.Is.num z0) z0]
      exact Fl.round_nonneg (std3 hF) _ _ (by positivity)
  rcases hu with rfl | rfl | rfl | rfl
  · rcases hF with rfl | rfl
    · rw [ev_b64]; exact cast_nonneg e10.2.2.ne (le_of_sgn e10)
    · rw [ev_x80]; exact le_of_sgn e10
  · rcases hF with rfl | rfl
    · rw [ev_b64]; exact le_of_sgn (hL.exps.exp2 b64 B2 x hx.2 hx0)
    · rw [ev_x80]; exact le_of_sgn (hL.exps.exp2 x80 X2 x hx.2 hx0)
  · rcases hF with rfl | rfl
    · rw [ev_b64]; exact le_of_sgn (hL.exps.exp b64 B2 x hx.2 hx0)
    · rw [ev_x80]; exact le_of_sgn (hL.exps.exp x80 X2 x hx.2 hx0)
  · rcases hF with rfl | rfl
    · rw [ev_b64]; exact sech
    · rw [ev_x80]; exact sech

theorem csch_side {L : Libm} (hL : L.Conforming) {F : Fmt} (hF : F = b64 ∨ F = x80) {s : Bool} {x : Fl} (hx : SArg s F x) :
    (bif s then Fl.le (UFun.csch.ev L F x) (.zero false) else Fl.le (.zero false) (UFun.csch.ev L F x)) = true := by
  have key : ∀ {x}, SArg s x80 x → (Fl.div x80 (.num 1) (L.sinh x80 x) ≠ .num 0) ∧
      (bif s then Fl.le (Fl.div x80 (.num 1) (L.sinh x80 x)) (.zero false) else Fl.le (.zero false) (Fl.div x80 (.num 1) (L.sinh x80 x))) = true := by
    intro x hx
    refine ⟨(Fl.div_type X3 _ _).ne, ?_⟩
    obtain ⟨hi, hs⟩ := sinh_side hL X2 hx
    generalize L.sinh x80 x = r at hi hs
    cases r with
    | nan => cases s <;> cases hs
    | inf t => cases s <;> cases t <;> first | rfl | cases hs
    | zero t => cases s <;> cases hs
    | num z =>
      rw [show Fl.div x80 (.num 1) (.num z) = Fl.round x80 _ (1 / z) from Fl.div_eq (a := 1) (Fl.Is.num (by norm_num)) (Fl.Is.num hi.1) hi.1]
      cases s
      · have : 0 < z := of_decide_eq_true hs
        exact Fl.round_nonneg X3 _ _ (by positivity)
      · have : z < 0 := of_decide_eq_true hs
        exact Fl.round_nonpos X3 _ _ (div_nonpos_of_nonneg_of_nonpos zero_le_one this.le)
  rcases hF with rfl | rfl
  · rw [ev_b64]
    obtain ⟨h0, h⟩ := key hx.up
    cases s
    · exact Fl.cast_le B3 (by simp) h0 h
    · exact Fl.cast_le B3 h0 (y := .zero false) (by simp) h
  · rw [ev_x80]; exact (key hx).2

theorem Fl.neg_ne_zero {x : Fl} (h : x ≠ .num 0) : x.neg ≠ .num 0 := by
  cases x with
  | num q =>
    intro e
    have : -q = 0 := by injection e
    exact h (by rw [neg_eq_zero.mp this])
  | _ => simp [Fl.neg]

theorem Fl.neg_le {x y : Fl} (hx : x ≠ .num 0) (hy : y ≠ .num 0) (h : Fl.le x y = true) : Fl.le y.neg x.neg = true := by
  obtain ⟨n1, n2, h⟩ := (Fl.le_iff hx hy).mp h
  have nn : ∀ {x : Fl}, x ≠ .nan → x.neg ≠ .nan := by intro x h; cases x <;> simp_all [Fl.neg]
  rw [Fl.le_iff (Fl.neg_ne_zero hy) (Fl.neg_ne_zero hx)]
  refine ⟨nn n2, nn n1, ?_⟩
  rcases h with rfl | rfl | ⟨a, b, ha, hb, h⟩
  · exact Or.inr (Or.inl rfl)
  · exact Or.inl rfl
  · exact Or.inr (Or.inr ⟨_, _, hb.neg, ha.neg, neg_le_neg h⟩)

theorem Fl.neg_in {F : Fmt} {x : Fl} (h : x.In F) : x.neg.In F := by
  cases x with
  | num q => exact ⟨_root_.neg_ne_zero.mpr h.1, In_neg h.2⟩
  | _ => exact h

theorem csch_cl {F : Fmt} (hF : F = b64 ∨ F = x80) {s : Bool} {x y r t : Fl} (hx : Side s F x) (hy : Side s F y)
    (hr : r.In F) (ht : t.In F) (h : Fl.le r t = true)
    (sr : (bif s then Fl.le r (.zero false) else Fl.le (.zero false) r) = true)
    (st : (bif s then Fl.le t (.zero false) else Fl.le (.zero false) t) = true)
    (fr : (fixCsch x r).isfinite = true) (ft : (fixCsch y t).isfinite = true) : Cl F (fixCsch x r) (fixCsch y t) := by
  have ninf : ∀ {x r : Fl}, (fixCsch x r).isfinite = true → ∀ i, r ≠ .inf i := by
    rintro x r h i rfl; cases h
  have lt0 : ∀ {x : Fl}, Side false F x → Fl.lt x (.zero false) = false := by
    rintro x ⟨hi, h⟩
    cases x with
    | num q =>
      have : 0 < q := of_decide_eq_true h
      exact decide_eq_false (not_lt.mpr this.le)
    | inf t => cases t <;> first | rfl | cases h
    | _ => cases h
  cases s
  · have e : ∀ {x r : Fl}, Side false F x → (∀ i, r ≠ .inf i) → fixCsch x r = fixExp x r := by
      intro x r hx hr
      have : r.isinf = false := by
        cases r with
        | inf i => exact absurd rfl (hr i)
        | _ => rfl
      simp [fixCsch, fixExp, this, lt0 hx]
    rw [e hx (ninf fr), e hy (ninf ft)]
    exact exp_cl hF hr ht h sr
  · have e : ∀ {x r : Fl}, Side true F x → (∀ i, r ≠ .inf i) → fixCsch x r = (fixExp x r.neg).neg := by
      rintro x r ⟨-, hx⟩ hr
      have hx : Fl.lt x (.zero false) = true := hx
      cases r with
      | inf i => exact absurd rfl (hr i)
      | nan => rfl
      | zero i => show (if Fl.lt x (.zero false) then DBL_MIN.neg else DBL_MIN) = _; rw [hx]; rfl
      | num q =>
        by_cases hq : q = 0
        · subst hq
          show (if Fl.lt x (.zero false) then DBL_MIN.neg else DBL_MIN) = _; rw [hx]; rfl
        · have e1 : Fl.eq (.num q) (.zero false) = false := by
            rw [← Bool.not_eq_true, Fl.eq_iff (Fl.Is.num hq) (Fl.Is.zero false)]; exact hq
          have e2 : Fl.eq (.num (-q)) (.zero false) = false := by
            rw [← Bool.not_eq_true, Fl.eq_iff (Fl.Is.num (neg_ne_zero.mpr hq)) (Fl.Is.zero false)]; exact neg_ne_zero.mpr hq
          simp [fixCsch, fixExp, e1, e2, Fl.neg, Fl.isinf]
    rw [e hx (ninf fr), e hy (ninf ft)]
    refine (exp_cl hF ?_ ?_ (Fl.neg_le hr.ne ht.ne h) ?_).neg
    · exact Fl.neg_in ht
    · exact Fl.neg_in hr
    · have st' : Fl.le t (.zero true) = true := by
        cases t with
        | inf i => cases i <;> exact st
        | _ => exact st
      have := Fl.neg_le (y := .zero true) ht.ne (by simp) st'
      exact this

/-- Results in order stay in order (or are both beyond the range) after the corrections. -/
theorem fix_cl {L : Libm} (hL : L.Conforming) (hM : L.Monotone) {F : Fmt} (hF : F = b64 ∨ F = x80) {u : UFun} {x y : Fl} (hx : x.FinIn F)
    (hy : y.FinIn F) (hc : u = .csch → ∃ s, SArg s F x ∧ SArg s F y) (hr : (u.ev L F x).In F) (ht : (u.ev L F y).In F)
    (h : Fl.le (u.ev L F x) (u.ev L F y) = true) (fr : (u.fix x (u.ev L F x)).isfinite = true) (ft : (u.fix y (u.ev L F y)).isfinite = true) :
    Cl F (u.fix x (u.ev L F x)) (u.fix y (u.ev L F y)) := by
  have cap : (u.fix = noFix ∨ u.fix = fixLog ∨ u.fix = fixSinh ∨ u.fix = fixInf) → Cl F (u.fix x (u.ev L F x)) (u.fix y (u.ev L F y)) := by
    intro hu
    have c : ∀ z, z.FinIn F → (u.fix = noFix ∨ u.fix = fixLog ∨ u.fix = fixSinh ∨ (u.fix = fixInf ∧ u.ev L F z ≠ .inf true)) := by
      intro z hz
      rcases hu with h | h | h | h
      · exact Or.inl h
      · exact Or.inr (Or.inl h)
      · exact Or.inr (Or.inr (Or.inl h))
      · exact Or.inr (Or.inr (Or.inr ⟨h, ev_low hL hM hF h hz⟩))
    rw [fix_cap _ (c x hx) fr, fix_cap _ (c y hy) ft]
    exact cap_cl hF hr ht h
  have sech : ∀ {x r : Fl}, (fixSech x r).isfinite = true → fixSech x r = fixExp x r := by
    intro x r h
    cases r with
    | inf i => cases h
    | num q => simp [fixSech, fixExp, Fl.isinf]
    | _ => rfl
  cases u
  case ten_raised => exact exp_cl (x' := x) (y' := y) hF hr ht h (ev_nonneg hL hF (Or.inl rfl) hx)
  case two_raised => exact exp_cl (x' := x) (y' := y) hF hr ht h (ev_nonneg hL hF (Or.inr (Or.inl rfl)) hx)
  case exp => exact exp_cl (x' := x) (y' := y) hF hr ht h (ev_nonneg hL hF (Or.inr (Or.inr (Or.inl rfl))) hx)
  case sech =>
    change Cl F (fixSech x _) (fixSech y _)
    rw [sech fr, sech ft]
    exact exp_cl (x' := x) (y' := y) hF hr ht h (ev_nonneg hL hF (Or.inr (Or.inr (Or.inr rfl))) hx)
  case csch =>
    obtain ⟨s, h1, h2⟩ := hc rfl
    exact csch_cl hF h1.side h2.side hr ht h (csch_side hL hF h1) (csch_side hL hF h2) fr ft
  all_goals exact cap (by first | exact Or.inl rfl | exact Or.inr (Or.inl rfl) | exact Or.inr (Or.inr (Or.inl rfl)) | exact Or.inr (Or.inr (Or.inr rfl)))

theorem fix_nan' (u : UFun) (x : Fl) : u.fix x .nan = .nan := by cases u <;> rfl

theorem call_mono {L : Libm} (hL : L.Conforming) (hM : L.Monotone) {k : Kind} {w : W} {u : UFun} {P : Fl → Prop} {anti : Bool}
    (hm : MonoOn P (kF k w) anti (u.ev L (kF k w))) (hP : ∀ x, P x → x.FinIn (kF k w))
    (hc : u = .csch → ∃ s, ∀ x, P x → SArg s (kF k w) x)
    {a b : T w} {x y : ℝ} (hx : value k a = some x) (hy : value k b = some y) (h : a.toInt ≤ b.toInt)
    (ha : ∀ r v, kTo L k w a = .ok r → Arg' k w r v x → P r) (hb : ∀ r v, kTo L k w b = .ok r → Arg' k w r v y → P r)
    {t t' : T w} (et : u.call L k w a = .ok t) (et' : u.call L k w b = .ok t') (nt : t ≠ nar w.n) (nt' : t' ≠ nar w.n) :
    bif anti then t'.toInt ≤ t.toInt else t.toInt ≤ t'.toInt := by
  have hF := kF_std k w
  obtain ⟨r, v, er, ar⟩ := kTo_acc hL k w hx
  obtain ⟨s, z, es, as⟩ := kTo_acc hL k w hy
  have pr := ha r v er ar
  have ps := hb s z es as
  have hrs : Fl.le r s = true := (Fl.le_is ar.is as.is).mpr (kTo_mono hL k w hx hy h er es ar.is as.is)
  rw [call_eq er] at et
  rw [call_eq es] at et'
  have fin : ∀ {f : Fl} {t : T w}, kFrom L k w f = .ok t → t ≠ nar w.n → f.isfinite = true := by
    intro f t h hn
    by_contra hf
    rw [kFrom_nonfinite L k w (by simpa using hf)] at h
    injection h with h
    exact hn h.symm
  have fr := fin et nt
  have fs := fin et' nt'
  have nn : ∀ {x : Fl}, (u.fix x (u.ev L (kF k w) x)).isfinite = true → u.ev L (kF k w) x ≠ .nan := by
    intro x h e
    rw [e, fix_nan'] at h; cases h
  have m := hm.mono r s pr ps hrs (nn fr) (nn fs)
  have cs : ∀ {x y}, P x → P y → (u = .csch → ∃ s, SArg s (kF k w) x ∧ SArg s (kF k w) y) := by
    intro x y hx hy e
    obtain ⟨s, h⟩ := hc e
    exact ⟨s, h x hx, h y hy⟩
  have fromCl : ∀ {f g : Fl} {t t' : T w}, Cl (kF k w) f g → kFrom L k w f = .ok t → kFrom L k w g = .ok t' → t.toInt ≤ t'.toInt := by
    rintro f g t t' ⟨a, b, h1, h2, h3, h4, h5⟩ e1 e2
    obtain ⟨t1, t2, e3, e4, h⟩ := kFrom_mono hL hM.log k w h1 h2 h3 h4 h5
    rw [e1] at e3; rw [e2] at e4
    injection e3 with e3; injection e4 with e4
    rw [e3, e4]; exact h
  cases anti
  · exact fromCl (fix_cl hL hM hF (hP r pr) (hP s ps) (cs pr ps) (hm.type r pr) (hm.type s ps) m fr fs) et et'
  · exact fromCl (fix_cl hL hM hF (hP s ps) (hP r pr) (cs ps pr) (hm.type s ps) (hm.type r pr) m fs fr) et' et

end Takum
