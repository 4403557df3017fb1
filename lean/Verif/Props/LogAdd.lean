import Verif.Lemmas.LogAdd
import Verif.Lemmas.Ideal

/-!
# Addition and subtraction of logarithmic takums (C51), order of the converted numbers (C60)
-/

namespace Takum
open Spec

/-- C60: the conversion of logarithmic takums to `long double`, and up to 32 bits to `double`, is strictly
increasing and odd, for every library whose `pow` has a relative error of at most two units in the last
place; `pow` itself is not assumed to be monotonic. -/
theorem log_to_increasing (L : Libm) (hL : L.Powers) (hA' : L.Accurate) (hS : L.Specials) (A : Src) (w : W)
    (h : A = .ext ∨ A = .f64 ∧ w ≠ .w64) (a b : T w) (ha : a ≠ nar w.n) (hb : b ≠ nar w.n) :
    ∃ x y z : Fl, logTo L A w a = .ok x ∧ logTo L A w b = .ok y ∧ logTo L A w (-a) = .ok z ∧
      (Fl.lt x y = true ↔ a.toInt < b.toInt) ∧ Fl.eq z x.neg = true := by
  have h1 : A ≠ .f32 := by
    rintro rfl; rcases h with h | h
    · cases h
    · cases h.1
  have h2 : A = .f64 → w ≠ .w64 := by
    rintro rfl; rcases h with h | h
    · cases h
    · exact h.2
  obtain ⟨x, ex, ix, -⟩ := logTo_xv hL h1 ha
  obtain ⟨y, ey, iy, -⟩ := logTo_xv hL h1 hb
  obtain ⟨z, ez, iz, -⟩ := logTo_xv hL h1 (neg_ne_nar ha)
  refine ⟨x, y, z, ex, ey, ez, ?_, ?_⟩
  · rw [Fl.lt_iff ix iy, xv_le_iff hL hA' h1 h2 ha hb]
  · rw [xv_neg hL hS h1 ha] at iz
    rw [Fl.eq_iff iz ix.neg]

example : ideal.Powers ∧ ideal.Accurate ∧ ideal.Specials ∧ (0xffffffffffffffff#64 : T .w64) ≠ nar 64 ∧
    (0xffffffffffffffff#64 : T .w64).toInt < (0x7fffffffffffffff#64 : T .w64).toInt :=
  ⟨ideal_powers, ideal_accurate, ideal_specials, by decide⟩

theorem add_comm_fl (F : Fmt) (x y : Fl) : Fl.add F x y = Fl.add F y x := by
  cases x <;> cases y <;> simp only [Fl.add]
  case inf.inf a b => cases a <;> cases b <;> rfl
  all_goals rw [add_comm, Bool.and_comm]

theorem logFrom_is {L : Libm} {A : Src} {w : W} {f g : Fl} {v : ℚ} (hf : f.Is v) (hg : g.Is v) :
    logFrom L A w f = logFrom L A w g := by
  by_cases hv : v = 0
  · subst hv
    rcases hf.cases with ⟨h, _⟩ | ⟨_, s, rfl⟩
    · exact absurd rfl h
    rcases hg.cases with ⟨h, _⟩ | ⟨_, s', rfl⟩
    · exact absurd rfl h
    rw [logFrom_zero, logFrom_zero]
  · rw [hf.eq_num hv, hg.eq_num hv]

theorem addition_eq {L : Libm} (hL : L.Powers) {w : W} {a b : T w} (ha : a ≠ nar w.n) (hb : b ≠ nar w.n) :
    ∃ f : Fl, f.Is (x80.rq (xv L .ext w a + xv L .ext w b)) ∧ addition L w a b = logFrom L .ext w f ∧
      x80.In (x80.rq (xv L .ext w a + xv L .ext w b)) := by
  obtain ⟨x, ex, ix, -, bx⟩ := logTo_xv hL (A := .ext) (by decide) ha
  obtain ⟨y, ey, iy, -, yb⟩ := logTo_xv hL (A := .ext) (by decide) hb
  have hi := sum_x80 bx yb
  exact ⟨_, ix.add iy hi.2, binaryLog_eq ex ey, hi⟩

theorem subtraction_eq {L : Libm} (hL : L.Powers) {w : W} {a b : T w} (ha : a ≠ nar w.n) (hb : b ≠ nar w.n) :
    ∃ f : Fl, f.Is (x80.rq (xv L .ext w a - xv L .ext w b)) ∧ subtraction L w a b = logFrom L .ext w f := by
  obtain ⟨x, ex, ix, -, bx⟩ := logTo_xv hL (A := .ext) (by decide) ha
  obtain ⟨y, ey, iy, -, yb⟩ := logTo_xv hL (A := .ext) (by decide) hb
  have hi := sum_x80 bx (b := -xv L .ext w b) (by rwa [abs_neg])
  rw [← sub_eq_add_neg] at hi
  exact ⟨_, ix.sub iy hi.2, binaryLog_eq ex ey⟩

theorem binaryLog_nar {L : Libm} (hL : L.Powers) {w : W} {fn : Fl → Fl → Fl} (hl : ∀ x, fn .nan x = .nan) (hr : ∀ x, fn x .nan = .nan)
    (t : T w) : binaryLog L fn noFix2 w (nar w.n) t = .ok (nar w.n) ∧ binaryLog L fn noFix2 w t (nar w.n) = .ok (nar w.n) := by
  have hN := logTo_nar hL.nan .ext w
  obtain ⟨x, hx⟩ := logTo_ok L .ext w t
  rw [binaryLog_eq hN hx, binaryLog_eq hx hN]
  unfold noFix2
  rw [hl, hr]
  exact ⟨logFrom_nonfinite L .ext w rfl, logFrom_nonfinite L .ext w rfl⟩

/-- C51: addition is commutative with any library whatsoever. -/
theorem log_addition_comm (L : Libm) (w : W) (a b : T w) : addition L w a b = addition L w b a := by
  obtain ⟨x, hx⟩ := logTo_ok L .ext w a
  obtain ⟨y, hy⟩ := logTo_ok L .ext w b
  unfold addition
  rw [binaryLog_eq hx hy, binaryLog_eq hy hx]
  unfold noFix2
  rw [add_comm_fl]

/-- C51: `0` is neutral, NaR absorbs, opposite elements cancel, subtraction is the addition of the
opposite. -/
theorem log_addition_laws (L : Libm) (hL : L.Powers) (hA : L.Accurate) (hS : L.Specials) (w : W) (a b : T w) :
    addition L w a 0#w.n = .ok a ∧
    addition L w a (nar w.n) = .ok (nar w.n) ∧
    (a ≠ nar w.n → addition L w a (-a) = .ok 0#w.n) ∧
    subtraction L w a b = addition L w a (-b) ∧
    (a ≠ nar w.n → subtraction L w a a = .ok 0#w.n) := by
  have nn : -nar w.n = nar w.n := by cases w <;> decide
  have N := fun t : T w => binaryLog_nar hL (w := w) (fn := Fl.add x80) (fun _ => rfl) (add_nan _) t
  have M := fun t : T w => binaryLog_nar hL (w := w) (fn := Fl.sub x80) (fun _ => rfl) (fun x => add_nan _ x) t
  have rz : x80.rq (0 : ℚ) = 0 := x80.rq_of_rep (Fmt.Rep.zero _)
  refine ⟨?_, (N a).2, fun ha => ?_, ?_, fun ha => ?_⟩
  · by_cases ha : a = nar w.n
    · subst ha; exact (N _).1
    obtain ⟨f, i, e, -⟩ := addition_eq hL ha (zero_ne_nar w)
    obtain ⟨x, ex, ix, nx, -⟩ := logTo_xv hL (A := .ext) (by decide) ha
    rw [xv_zero hL, add_zero, x80.rq_of_rep nx.1] at i
    rw [e, logFrom_is i ix]
    by_cases h0 : a = 0#w.n
    · subst h0
      rw [logTo_zero hL] at ex
      obtain rfl := Except.ok.inj ex
      exact logFrom_zero _ _ _ _
    obtain ⟨x', ex', hx'⟩ := round_trip hL hA .ext (by decide) w (by simp) ⟨h0, ha⟩
    rw [ex] at ex'
    obtain rfl := Except.ok.inj ex'
    exact hx'
  · obtain ⟨f, i, e, -⟩ := addition_eq hL ha (neg_ne_nar ha)
    rw [xv_neg hL hS (by decide) ha, add_neg_cancel, rz] at i
    rw [e, logFrom_is i (Fl.Is.zero false), logFrom_zero]
  · by_cases ha : a = nar w.n
    · subst ha; unfold subtraction addition; rw [(N _).1, (M _).1]
    by_cases hb : b = nar w.n
    · subst hb; unfold subtraction addition; rw [nn, (N _).2, (M _).2]
    obtain ⟨f, i, e, -⟩ := addition_eq hL ha (neg_ne_nar hb)
    obtain ⟨g, j, e'⟩ := subtraction_eq hL ha hb
    rw [xv_neg hL hS (by decide) hb, ← sub_eq_add_neg] at i
    rw [e, e', logFrom_is i j]
  · obtain ⟨g, j, e'⟩ := subtraction_eq hL ha ha
    rw [sub_self, rz] at j
    rw [e', logFrom_is j (Fl.Is.zero false), logFrom_zero]

/-- C51: the sum of takums other than NaR is not NaR, and it is positive, zero or negative exactly as the sum
of the represented numbers is (in particular it is 0 only for opposite arguments). -/
theorem log_addition_sign (L : Libm) (hL : L.Powers) (hA : L.Accurate) (hS : L.Specials) (hG : L.Logs) (w : W) (a b : T w)
    (x y : ℝ) (hx : logVal a = some x) (hy : logVal b = some y) :
    ∃ s : T w, addition L w a b = .ok s ∧ s ≠ nar w.n ∧ (0 < s.toInt ↔ 0 < x + y) ∧ (s.toInt < 0 ↔ x + y < 0) ∧
      (s = 0#w.n ↔ x + y = 0) := by
  have h8 := w.n_pos
  have ha : a ≠ nar w.n := by rw [Ne, ← value_none (k := .log), show value .log a = _ from hx]; simp
  have hb : b ≠ nar w.n := by rw [Ne, ← value_none (k := .log), show value .log b = _ from hy]; simp
  obtain ⟨f, i, e, n⟩ := addition_eq hL ha hb
  obtain ⟨s, e', h1, h2, h3⟩ := kFrom_fin hG (k := .log) (w := w) i n
  obtain ⟨-, -, -, na, -⟩ := logTo_xv hL (A := .ext) (by decide) ha
  obtain ⟨-, -, -, nb, -⟩ := logTo_xv hL (A := .ext) (by decide) hb
  have p := rq_sum_pos (F := x80) (by decide) na nb
  have q := rq_sum_neg (F := x80) (by decide) na nb
  -- the order of the values
  have hyn : logVal (-b) = some (-y) := by rw [(neg_value (by omega) b).1, hy]; rfl
  have o1 : (-b).toInt < a.toInt ↔ -y < x := by
    obtain ⟨x', y', hx', hy', o, -⟩ := log_order (by omega : 5 ≤ w.n) (-b) a (neg_ne_nar hb) ha
    rw [hyn] at hx'; rw [hx] at hy'
    obtain rfl := Option.some.inj hx'
    obtain rfl := Option.some.inj hy'
    exact o
  have o2 : a.toInt < (-b).toInt ↔ x < -y := by
    obtain ⟨x', y', hx', hy', o, -⟩ := log_order (by omega : 5 ≤ w.n) a (-b) ha (neg_ne_nar hb)
    rw [hyn] at hy'; rw [hx] at hx'
    obtain rfl := Option.some.inj hx'
    obtain rfl := Option.some.inj hy'
    exact o
  have c1 := xv_le_iff hL hA (A := .ext) (by decide) (by simp) (neg_ne_nar hb) ha
  have c2 := xv_le_iff hL hA (A := .ext) (by decide) (by simp) ha (neg_ne_nar hb)
  rw [xv_neg hL hS (by decide) hb] at c1 c2
  have P : 0 < x80.rq (xv L .ext w a + xv L .ext w b) ↔ 0 < x + y := by
    rw [p, show 0 < x + y ↔ -y < x by constructor <;> intro <;> linarith, ← o1, ← c1]
    constructor <;> intro <;> linarith
  have Q : x80.rq (xv L .ext w a + xv L .ext w b) < 0 ↔ x + y < 0 := by
    rw [q, show x + y < 0 ↔ x < -y by constructor <;> intro <;> linarith, ← o2, ← c2]
    constructor <;> intro <;> linarith
  have Z : x80.rq (xv L .ext w a + xv L .ext w b) = 0 ↔ x + y = 0 := by
    constructor
    · intro h; rw [h] at P Q
      exact le_antisymm (not_lt.mp (fun h => lt_irrefl _ (P.mpr h))) (not_lt.mp (fun h => lt_irrefl _ (Q.mpr h)))
    · intro h; rw [h] at P Q
      exact le_antisymm (not_lt.mp (fun h => lt_irrefl _ (P.mp h))) (not_lt.mp (fun h => lt_irrefl _ (Q.mp h)))
  refine ⟨s, by rw [e]; exact e', h1, ?_, by rw [h3, Q], by rw [h2, Z]⟩
  have s0 : s.toInt = 0 ↔ s = 0#w.n :=
    ⟨fun h => BitVec.eq_of_toInt_eq (by rw [h]; simp), fun h => by rw [h]; simp⟩
  rw [show 0 < s.toInt ↔ ¬ s.toInt < 0 ∧ ¬ s.toInt = 0 by omega, s0, h2, h3, Z, Q]
  constructor
  · rintro ⟨u, v⟩; exact lt_of_le_of_ne (not_lt.mp u) (Ne.symm v)
  · intro h; exact ⟨not_lt.mpr h.le, h.ne'⟩

/-- A library meeting the hypotheses, and two arguments of different sign and magnitude. -/
example : ideal.Powers ∧ ideal.Accurate ∧ ideal.Specials ∧ ideal.Logs ∧ ∃ x y, logVal (0x7fffffffffffffff#64 : T .w64) = some x ∧
    logVal (0x8000000000000002#64 : T .w64) = some y :=
  ⟨ideal_powers, ideal_accurate, ideal_specials, ideal_logs, _, _, logVal_regular (by decide) (by unfold Regular; decide),
    logVal_regular (by decide) (by unfold Regular; decide)⟩

end Takum
