import Verif.Lemmas.TestBlocks
import Verif.Model.TestFuns
import Verif.Lemmas.Call
import Verif.Props.LinArith

/-!
# Test programs for arithmetic and elementary functions: lemmas
-/

namespace Takum.Test
open Takum Spec

/-! ## Blocks of two arguments -/

theorem type_pass2 {E : Env} {ref : Fl → Fl → Fl} {f : Kind → (w : W) → T w → T w → C (T w)} (k : Kind)
    (w : W) (h : ∀ t u : T w, checkCase E (.binary ref f) t.toInt u.toInt k w = .ok false) :
    ∃ p t, runType E (.binary ref f) k w (2 ^ 22) = .ok ⟨0, p, t⟩ := by
  by_cases hm : 2 ^ w.n * 2 ^ w.n ≤ 2 ^ 22
  · have hw : w ≠ .w64 := by rintro rfl; revert hm; decide
    exact status_zero (pair_report hw hm (lt_of_le_of_lt hm (by norm_num)) (fun _ => True) (fun _ => True)
      (fun t u => by simp [h t u]) (fun t u => by simp [h t u])) (fun _ => trivial) (fun _ => trivial)
  · exact status_zero (pair_random_report (by norm_num) (by norm_num) (not_le.mp hm) (fun _ _ => True)
      (fun _ _ => True) (fun t u => by simp [h t u]) (fun t u => by simp [h t u]))
      (fun _ => trivial) (fun _ => trivial)

theorem block_pass2 {E : Env} {ref : Fl → Fl → Fl} {f : Kind → (w : W) → T w → T w → C (T w)}
    (h : ∀ k w (t u : T w), PassedBinary E ref f k w t u) : runBlock E (.binary ref f) = .ok 0 := by
  have g := fun k w => type_pass2 (E := E) (ref := ref) (f := f) k w
    (fun t u => (case_binary t u).2.mp (h k w t u))
  unfold runBlock
  obtain ⟨_, _, e1⟩ := g .log .w8
  obtain ⟨_, _, e2⟩ := g .log .w16
  obtain ⟨_, _, e3⟩ := g .log .w32
  obtain ⟨_, _, e4⟩ := g .log .w64
  obtain ⟨_, _, e5⟩ := g .lin .w8
  obtain ⟨_, _, e6⟩ := g .lin .w16
  obtain ⟨_, _, e7⟩ := g .lin .w32
  obtain ⟨_, _, e8⟩ := g .lin .w64
  simp only [e1, e2, e3, e4, e5, e6, e7, e8, R_ok_bind]
  rfl

theorem block_pass1 {E : Env} {ref : Fl → Fl} {f : Kind → (w : W) → T w → C (T w)}
    (h : ∀ k w (t : T w), PassedUnary E ref f k w t) : runBlock E (.unary ref f) = .ok 0 :=
  block_pass (blk := .unary ref f) trivial fun k w t => (case_unary t _).2.mp (h k w t)

/-! ## Cases -/

/-- A result and a reference that differ by at most one unit; for 64 bits they are equal. -/
theorem unary_near {E : Env} {ref : Fl → Fl} {f : Kind → (w : W) → T w → C (T w)} {k : Kind} {w : W}
    {t u v : T w} {a : Fl} (hfl : E.flags k w t.toInt 0 = (false, false)) (ha : toExt E.L k w t = .ok a)
    (hf : f k w t = .ok u) (hr : fromExt E.L k w (ref a) = .ok v) (hn : |u.toInt - v.toInt| ≤ 1)
    (h64 : w = .w64 → u = v) : PassedUnary E ref f k w t := by
  refine ⟨_, ⟨a, ha, rfl⟩, u, v.toInt, hf, ?_, ?_, hn⟩
  · rw [hfl]; exact .regular _ _ _ (.inl rfl) hr
  · intro hw; rw [h64 hw]; exact ⟨fun h => h.2 rfl, fun h => h.2.1 rfl⟩

theorem binary_near {E : Env} {ref : Fl → Fl → Fl} {f : Kind → (w : W) → T w → T w → C (T w)} {k : Kind}
    {w : W} {t t' u v : T w} {a b : Fl} (hfl : E.flags k w t.toInt t'.toInt = (false, false))
    (ha : toExt E.L k w t = .ok a) (hb : toExt E.L k w t' = .ok b)
    (hf : f k w t t' = .ok u) (hr : fromExt E.L k w (ref a b) = .ok v) (hn : |u.toInt - v.toInt| ≤ 1)
    (h64 : w = .w64 → u = v) : PassedBinary E ref f k w t t' := by
  refine ⟨_, ⟨a, b, ha, hb, rfl⟩, u, v.toInt, hf, ?_, ?_, hn⟩
  · rw [hfl]; exact .regular _ _ _ (.inl rfl) hr
  · intro hw; rw [h64 hw]; exact ⟨fun h => h.2 rfl, fun h => h.2.1 rfl⟩

/-! ## Two conversions of nearby numbers -/

theorem faith (A : Src) (w : W) {f : Fl} {v : ℚ} (hf : f.Is v) (h : A.fmt.In v) :
    ∃ t : T w, linFrom A w f = .ok t ∧ t ≠ nar w.n ∧ ∀ t' : T w, t' ≠ nar w.n →
      (qv t' ≤ v → t'.toInt ≤ t.toInt) ∧ (v ≤ qv t' → t.toInt ≤ t'.toInt) := by
  have h8 := w.n_pos
  obtain ⟨t, e, h1, h2, h3, h4⟩ := linFrom_finite A w hf h
  refine ⟨t, e, h1, fun t' ht' => ?_⟩
  have hs : ∀ t' : T w, t' ≠ nar w.n → (0 ≤ qv t' ↔ 0 ≤ t'.toInt) ∧ (qv t' ≤ 0 ↔ t'.toInt ≤ 0) := by
    intro t' ht'
    have a := qv_le_iff (zero_ne_nar w) ht'
    have b := qv_le_iff ht' (zero_ne_nar w)
    have z : (0#w.n).toInt = 0 := by simp
    rw [qv_zero, z] at a b
    exact ⟨a, b⟩
  obtain ⟨s1, s2⟩ := hs t' ht'
  by_cases hv : v = 0
  · have e0 : t.toInt = 0 := by rw [h2 hv]; simp
    subst hv
    rw [e0]; exact ⟨s2.mp, s1.mp⟩
  by_cases h0 : t' = 0#w.n
  · subst h0
    rw [qv_zero]
    simp only [BitVec.toInt_zero]
    rcases lt_or_gt_of_ne hv with hv | hv
    · exact ⟨fun h => absurd h (not_le.mpr hv), fun _ => (h3 hv).le⟩
    · exact ⟨fun _ => (h4 hv).le, fun h => absurd h (not_le.mpr hv)⟩
  · obtain ⟨t2, e2, -, -, h5⟩ := linFrom_faithful A w hf hv h
    rw [e] at e2; cases e2
    rw [qv_regular ⟨h0, ht'⟩]
    exact h5 t' ⟨h0, ht'⟩

/-- If no takum lies strictly between two numbers their conversions differ by at most one unit. -/
theorem bracket {w : W} {A B : Src} {f g : Fl} {p q : ℚ} (hf : f.Is p) (hp : A.fmt.In p) (hg : g.Is q)
    (hq : B.fmt.In q)
    (h : ∀ t : T w, t ≠ nar w.n → ¬ (p < qv t ∧ qv t < q) ∧ ¬ (q < qv t ∧ qv t < p)) :
    ∃ u v : T w, linFrom A w f = .ok u ∧ linFrom B w g = .ok v ∧ |u.toInt - v.toInt| ≤ 1 := by
  have h8 := w.n_pos
  obtain ⟨u, e1, n1, f1⟩ := faith A w hf hp
  obtain ⟨v, e2, n2, f2⟩ := faith B w hg hq
  refine ⟨u, v, e1, e2, ?_⟩
  have hn : (nar w.n).toInt = -2 ^ (w.n - 1) := nar_toInt (by omega)
  have mid : ∀ a b : T w, a.toInt + 2 ≤ b.toInt → ∃ t : T w, t.toInt = a.toInt + 1 ∧ t ≠ nar w.n := by
    intro a b hab
    have b1 := BitVec.toInt_lt (x := b)
    have b2 := BitVec.le_toInt (x := a)
    have e : (BitVec.ofInt w.n (a.toInt + 1)).toInt = a.toInt + 1 := by
      rw [BitVec.toInt_ofInt_eq_self (by omega)] <;> linarith
    refine ⟨BitVec.ofInt w.n (a.toInt + 1), e, ?_⟩
    intro hc
    rw [hc, hn] at e
    linarith
  rw [abs_le]
  constructor
  · by_contra hc
    obtain ⟨t, et, nt⟩ := mid u v (by omega)
    refine (h t nt).1 ⟨?_, ?_⟩
    · by_contra h1; have := (f1 t nt).1 (not_lt.mp h1); omega
    · by_contra h1; have := (f2 t nt).2 (not_lt.mp h1); omega
  · by_contra hc
    obtain ⟨t, et, nt⟩ := mid v u (by omega)
    refine (h t nt).2 ⟨?_, ?_⟩
    · by_contra h1; have := (f2 t nt).1 (not_lt.mp h1); omega
    · by_contra h1; have := (f1 t nt).2 (not_lt.mp h1); omega

theorem lin_ext {L : Libm} {w : W} {t : T w} {r : Fl} (h : linTo w.src w t = .ok r) : toExt L .lin w t = .ok r := by
  obtain ⟨⟨e1, -⟩, h2⟩ := lin_to_exact w t
  show linToExtended w t = _
  rw [e1]
  by_cases hw : w = .w64
  · subst hw
    have : linToExtended .w64 t = .ok r := h
    rw [e1] at this; exact this
  · rw [← (h2 hw).1, ← h]
    cases w <;> first | rfl | exact absurd rfl hw

theorem x80_qv {w : W} (t : T w) : x80.Rep (qv t) := by
  by_cases hn : t = nar w.n
  · subst hn
    have := (lv_in (nar w.n) (F := x80) (by cases w <;> decide) (by decide) (by decide)).1
    unfold qv val; split
    · exact Fmt.Rep.zero _
    · exact this
  · exact ((lin_to_exact w t).1.2 _ (linVal_qv hn)).1

/-- The results of an operation rounded to the type of the function and to `long double`. -/
theorem rounded_near {w : W} {f g : Fl} (x : ℝ) (hf : f.Is (w.src.fmt.rq x)) (hp : w.src.fmt.In (w.src.fmt.rq x))
    (hg : g.Is (x80.rq x)) (hq : x80.In (x80.rq x)) :
    ∃ u v : T w, linFrom w.src w f = .ok u ∧ linFrom .ext w g = .ok v ∧ |u.toInt - v.toInt| ≤ 1 := by
  refine bracket (B := .ext) hf hp hg hq fun t _ => ?_
  have p1 : 1 ≤ w.src.fmt.prec := by have := (src_facts w).1; omega
  have a1 := Fmt.rq_real_le w.src.fmt p1 (x := x) (qv_src (t := t)).1
  have a2 := Fmt.le_rq_real w.src.fmt p1 (x := x) (qv_src (t := t)).1
  have b1 := Fmt.rq_real_le x80 (by decide) (x := x) (x80_qv t)
  have b2 := Fmt.le_rq_real x80 (by decide) (x := x) (x80_qv t)
  rcases le_total (qv t : ℝ) x with h | h
  · exact ⟨fun c => absurd (a2 h) (not_le.mpr c.1), fun c => absurd (b2 h) (not_le.mpr c.1)⟩
  · exact ⟨fun c => absurd (b1 h) (not_le.mpr c.2), fun c => absurd (a1 h) (not_le.mpr c.2)⟩

/-! ## Linear arithmetic -/

theorem rq_cast_real (F : Fmt) (q : ℚ) : F.rq (q : ℝ) = F.rq q := Fmt.rq_cast F q

theorem x80_small {q : ℚ} (h : |q| ≤ (2 : ℚ) ^ (600 : ℤ)) :
    |x80.rq q| < (2 : ℚ) ^ x80.emax ∧ x80.In (x80.rq q) :=
  ⟨rq_src (w := .w64) h, rq_src_in (w := .w64) h⟩

/-- An operation on two linear takums through the wrapper and in `long double`: the results differ by
at most one unit, for 64 bits not at all. -/
theorem lin_pair {L : Libm} {w : W} {op : Fmt → Fl → Fl → Fl} {a b : T w} {x y : Fl}
    (hx : linTo w.src w a = .ok x) (hy : linTo w.src w b = .ok y)
    (h : (∃ q : ℚ, |q| ≤ (2 : ℚ) ^ (600 : ℤ) ∧ ∀ F : Fmt, 1 ≤ F.prec → |F.rq q| < (2 : ℚ) ^ F.emax → (op F x y).Is (F.rq q)) ∨
      ∀ F : Fmt, (op F x y).isfinite = false) :
    ∃ u v : T w, binaryLin op noFix2 w a b = .ok u ∧ fromExt L .lin w (op x80 x y) = .ok v ∧
      |u.toInt - v.toInt| ≤ 1 ∧ (w = .w64 → u = v) := by
  rw [binaryLin_eq hx hy]
  show ∃ u v : T w, linFrom w.src w (op w.src.fmt x y) = .ok u ∧ linFrom .ext w (op x80 x y) = .ok v ∧ _
  by_cases hw : w = .w64
  · subst hw
    obtain ⟨v, hv⟩ := linFrom_ok .ext .w64 (op x80 x y)
    exact ⟨v, v, hv, hv, by simp, fun _ => rfl⟩
  rcases h with ⟨q, hq, h⟩ | h
  · have h1 := h w.src.fmt (by have := (src_facts w).1; omega) (rq_src hq)
    have h2 := h x80 (by decide) (x80_small hq).1
    have i1 := rq_src_in (w := w) hq
    have i2 := (x80_small hq).2
    rw [← rq_cast_real] at h1 h2 i1 i2
    obtain ⟨u, v, e1, e2, e3⟩ := rounded_near (w := w) (q : ℝ) h1 i1 h2 i2
    exact ⟨u, v, e1, e2, e3, fun e => absurd e hw⟩
  · have bad : ∀ (A : Src) (f : Fl), f.isfinite = false → linFrom A w f = .ok (nar w.n) := by
      intro A f hf
      cases f with
      | nan => exact linFrom_nan _ _
      | inf s => exact linFrom_inf _ _ s
      | zero s => simp [Fl.isfinite] at hf
      | num q => simp [Fl.isfinite] at hf
    exact ⟨_, _, bad _ _ (h _), bad _ _ (h _), by simp, fun e => absurd e hw⟩

theorem lin_arg (w : W) (t : T w) : ∃ r : Fl, linTo w.src w t = .ok r ∧
    ((t = nar w.n ∧ r = .nan) ∨ (t ≠ nar w.n ∧ r.Is (qv t))) := by
  by_cases h : t = nar w.n
  · exact ⟨.nan, h ▸ linTo_src_nar w, .inl ⟨h, rfl⟩⟩
  · obtain ⟨r, e, hr⟩ := linTo_src w h
    exact ⟨r, e, .inr ⟨h, hr⟩⟩

/-- A binary operation on linear takums whose reference is the same operation in `long double`. -/
theorem lin_binary {E : Env} {op : Fmt → Fl → Fl → Fl} {f : Kind → (w : W) → T w → T w → C (T w)}
    (hf : ∀ w, f .lin w = binaryLin op noFix2 w) (w : W) (a b : T w)
    (hfl : E.flags .lin w a.toInt b.toInt = (false, false))
    (h : ∀ x y : Fl, (x = .nan ∧ a = nar w.n) ∨ (x.Is (qv a) ∧ a ≠ nar w.n) → (y = .nan ∧ b = nar w.n) ∨ (y.Is (qv b) ∧ b ≠ nar w.n) →
      (∃ q : ℚ, |q| ≤ (2 : ℚ) ^ (600 : ℤ) ∧
        ∀ F : Fmt, 1 ≤ F.prec → |F.rq q| < (2 : ℚ) ^ F.emax → (op F x y).Is (F.rq q)) ∨
      ∀ F : Fmt, (op F x y).isfinite = false) :
    PassedBinary E (op x80) f .lin w a b := by
  obtain ⟨x, ex, hx⟩ := lin_arg w a
  obtain ⟨y, ey, hy⟩ := lin_arg w b
  obtain ⟨u, v, e1, e2, e3, e4⟩ := lin_pair (L := E.L) (op := op) ex ey
    (h x y (by rcases hx with ⟨a, b⟩ | ⟨a, b⟩ <;> tauto) (by rcases hy with ⟨a, b⟩ | ⟨a, b⟩ <;> tauto))
  exact binary_near hfl (lin_ext ex) (lin_ext ey) (by rw [hf]; exact e1) e2 e3 e4

/-- An operation of the wrapper for logarithmic takums whose reference is the same operation. -/
theorem log_binary {E : Env} {op : Fl → Fl → Fl} {f : Kind → (w : W) → T w → T w → C (T w)}
    (hf : ∀ w, f .log w = binaryLog E.L op noFix2 w) (w : W) (a b : T w)
    (hfl : E.flags .log w a.toInt b.toInt = (false, false)) : PassedBinary E op f .log w a b := by
  obtain ⟨x, hx⟩ := toExt_ok E.L .log w a
  obtain ⟨y, hy⟩ := toExt_ok E.L .log w b
  obtain ⟨v, hv⟩ := fromExt_ok E.L .log w (op x y)
  refine binary_near hfl hx hy ?_ hv (by simp) (fun _ => rfl)
  rw [hf, binaryLog_eq hx hy]; exact hv

theorem sub_fin {F : Fmt} : (∀ y, (Fl.sub F .nan y).isfinite = false) ∧ (∀ x, (Fl.sub F x .nan).isfinite = false) := by
  constructor <;> intro x <;> cases x <;> rfl

theorem add_fin {F : Fmt} : (∀ y, (Fl.add F .nan y).isfinite = false) ∧ (∀ x, (Fl.add F x .nan).isfinite = false) := by
  constructor <;> intro x <;> cases x <;> rfl

theorem mul_fin {F : Fmt} : (∀ y, (Fl.mul F .nan y).isfinite = false) ∧ (∀ x, (Fl.mul F x .nan).isfinite = false) := by
  constructor <;> intro x <;> cases x <;> rfl

theorem div_fin {F : Fmt} : (∀ y, (Fl.div F .nan y).isfinite = false) ∧ (∀ x, (Fl.div F x .nan).isfinite = false) ∧
    ∀ x s, (Fl.div F x (.zero s)).isfinite = false := by
  refine ⟨?_, ?_, ?_⟩ <;> intro x <;> cases x <;> first | rfl | (intro s; rfl)

/-! ## Results computed in `long double` and converted -/

theorem src_cast_in {w : W} {q : ℚ} (hi : x80.In q) (hq : w ≠ .w64 → |q| ≤ (2 : ℚ) ^ (1023 : ℤ)) :
    |w.src.fmt.rq q| < (2 : ℚ) ^ w.src.fmt.emax := by
  by_cases hw : w = .w64
  · subst hw
    have : (W.w64).src.fmt.rq q = q := x80.rq_of_rep hi.1
    rw [this]; exact hi.2
  · obtain ⟨h1, h2, h3⟩ := src_facts w
    have hr : w.src.fmt.Rep ((2 : ℚ) ^ (1023 : ℤ)) := Fmt.Rep.zpow (by omega) (by omega)
    exact lt_of_le_of_lt (Fmt.abs_rq_le _ (by omega) hr (hq hw)) (zpow_lt_zpow_right₀ (by norm_num) (by omega))

/-- A `long double` converted to the type of the function and then to a takum, and directly. -/
theorem cast_near {w : W} {r : Fl} {q : ℚ} (hr : r.Is q) (hi : x80.In q)
    (hq : w ≠ .w64 → |q| ≤ (2 : ℚ) ^ (1023 : ℤ)) :
    ∃ u v : T w, linFrom w.src w (Fl.cast w.src.fmt r) = .ok u ∧ linFrom .ext w r = .ok v ∧
      |u.toInt - v.toInt| ≤ 1 ∧ (w = .w64 → u = v) := by
  have h1 := src_cast_in (w := w) hi hq
  have p1 : 1 ≤ w.src.fmt.prec := by have := (src_facts w).1; omega
  have c : (Fl.cast w.src.fmt r).Is (w.src.fmt.rq q) := hr.cast h1
  have c2 : w.src.fmt.In (w.src.fmt.rq q) := ⟨Fmt.rq_rep _ p1 _, h1⟩
  by_cases hw : w = .w64
  · subst hw
    have e : (W.w64).src.fmt.rq q = q := x80.rq_of_rep hi.1
    rw [e] at c
    obtain ⟨v, hv⟩ := linFrom_ok .ext .w64 r
    refine ⟨v, v, ?_, hv, by simp, fun _ => rfl⟩
    exact (linFrom_congr .ext .w64 c hr hi).trans hv
  · rw [← rq_cast_real] at c c2
    have e : x80.rq (q : ℝ) = q := by rw [rq_cast_real]; exact x80.rq_of_rep hi.1
    obtain ⟨u, v, e1, e2, e3⟩ := rounded_near (w := w) (q : ℝ) c c2 (e.symm ▸ hr) (e.symm ▸ hi)
    exact ⟨u, v, e1, e2, e3, fun e => absurd e hw⟩

theorem lin_bad (A : Src) (w : W) {f : Fl} (hf : f.isfinite = false) : linFrom A w f = .ok (nar w.n) := by
  cases f with
  | nan => exact linFrom_nan _ _
  | inf s => exact linFrom_inf _ _ s
  | zero s => simp [Fl.isfinite] at hf
  | num q => simp [Fl.isfinite] at hf

theorem cast_bad {F : Fmt} {f : Fl} (hf : f.isfinite = false) : (Fl.cast F f).isfinite = false := by
  cases f <;> first | rfl | simp [Fl.isfinite] at hf

/-- The same for a result that may be infinite or not a number. -/
theorem cast_near' {w : W} {r : Fl}
    (h : r.isfinite = false ∨ ∃ q : ℚ, r.Is q ∧ x80.In q ∧ (w ≠ .w64 → |q| ≤ (2 : ℚ) ^ (1023 : ℤ))) :
    ∃ u v : T w, linFrom w.src w (Fl.cast w.src.fmt r) = .ok u ∧ linFrom .ext w r = .ok v ∧
      |u.toInt - v.toInt| ≤ 1 ∧ (w = .w64 → u = v) := by
  rcases h with h | ⟨q, h1, h2, h3⟩
  · exact ⟨_, _, lin_bad _ _ (cast_bad h), lin_bad _ _ h, by simp, fun _ => rfl⟩
  · exact cast_near h1 h2 h3

end Takum.Test
