import Verif.Lemmas.IdealMono2
import Verif.Props.Angles
import Verif.Props.Inequalities
import Verif.Props.Monotone
import Verif.Props.PowerAgree

/-!
# C124: the functions of two arguments are monotone

`power`, `hypotenuse`, `arctan2`, `arctan2_over_pi` of both families. The powers and roots that are computed with `powl` are in `Props/MonoPow.lean`.
-/

namespace Takum
open Spec

section
variable {L : Libm} (hL : L.Conforming)
include hL

/-- Two ordered floats (or floats beyond the range on the same side) give ordered takums. -/
theorem kFrom_cl (k : Kind) {w : W} (hm : Increasing L.log) {f g : Fl} (h : Cl (kF k w) f g) :
    ∃ (s t : T w) (y z : ℝ), kFrom L k w f = .ok s ∧ kFrom L k w g = .ok t ∧ value k s = some y ∧ value k t = some z ∧ y ≤ z := by
  obtain ⟨a, b, ha, hb, ia, ib, h⟩ := h
  obtain ⟨s, t, e1, e2, l⟩ := kFrom_mono hL hm k w ha hb ia ib h
  obtain ⟨s', y, e1', hy, -⟩ := kFrom_unit hL k (w := w) ha ia
  obtain ⟨t', z, e2', hz, -⟩ := kFrom_unit hL k (w := w) hb ib
  rw [e1] at e1'; rw [e2] at e2'; cases e1'; cases e2'
  exact ⟨s, t, y, z, e1, e2, hy, hz, (value_order k hy hz).mp l⟩

/-- `pow` of a positive base. -/
theorem pow_pos_facts {F : Fmt} (hF : F = b64 ∨ F = x80) {x z : Fl} {p c : ℚ} (hx : x.Is p) (hz : z.Is c) (ip : F.In p) (ic : F.In c) (h : 0 < p) :
    L.pow F x z ≠ .nan ∧ (L.pow F x z).sgn = false ∧ (L.pow F x z).In F := by
  have := hx.eq_num h.ne'
  subst this
  rcases hz.cases with ⟨h0, rfl⟩ | ⟨rfl, s, rfl⟩
  · obtain ⟨h1, h2, h3⟩ := hL.powSigns.regular F hF p c h.ne' h0 ip ic (Or.inl h)
    refine ⟨h1, ?_, h2⟩
    rw [Bool.eq_false_iff, Ne, h3]
    exact fun h' => absurd h'.1 h.not_gt
  · rw [hL.specials.exp_zero]
    exact ⟨by simp, by simp [Fl.sgn], ⟨one_ne_zero, one_in (big_std hF)⟩⟩

omit hL in
theorem fixPower_exp {x z r : Fl} {p : ℚ} (hx : x.Is p) (h : 0 < p) (hr : r ≠ .nan ∧ r.sgn = false) : fixPower x z r = fixExp x r := by
  have := hx.eq_num h.ne'
  subst this
  have e : Fl.eq (.num p) (.zero false) = false := by simp [Fl.eq, Fl.toQ, h.ne']
  unfold fixPower fixExp
  rw [e, hr.2]; rfl

theorem pow_cl {F : Fmt} (hF : F = b64 ∨ F = x80) {x z x' z' : Fl} {p c p' c' : ℚ} (hx : x.Is p) (hz : z.Is c) (ip : F.In p) (ic : F.In c) (h : 0 < p)
    (hx' : x'.Is p') (hz' : z'.Is c') (ip' : F.In p') (ic' : F.In c') (h' : 0 < p') (hle : Fl.le (L.pow F x z) (L.pow F x' z') = true) :
    Cl F (fixPower x z (L.pow F x z)) (fixPower x' z' (L.pow F x' z')) := by
  have a := pow_pos_facts hL hF hx hz ip ic h
  have b := pow_pos_facts hL hF hx' hz' ip' ic' h'
  rw [fixPower_exp hx h ⟨a.1, a.2.1⟩, fixPower_exp hx' h' ⟨b.1, b.2.1⟩]
  exact exp_cl hF a.2.2 b.2.2 hle (le_of_sgn a)
end


section
variable {L : Libm} (hL : L.Conforming) (hm : Increasing L.log)
include hL hm

/-- The order of the arguments. -/
theorem arg_le (k : Kind) {w : W} {a b : T w} {x y : ℝ} (hx : value k a = some x) (hy : value k b = some y) {r r' : Fl} {v v' : ℚ} (e : kTo L k w a = .ok r)
    (A : Arg' k w r v x) (e' : kTo L k w b = .ok r') (A' : Arg' k w r' v' y) (h : x ≤ y) : v ≤ v' := by
  by_contra hc
  have h1 := kFrom_le hL k (fun _ => hm) A'.is A.is A'.isIn A.isIn (not_le.mp hc).le (kFrom_kTo hL k b e') (kFrom_kTo hL k a e) hy hx
  have h2 := (value_order k hx hy).mpr h
  have h3 := (value_order k hy hx).mpr h1
  have : a = b := BitVec.eq_of_toInt_eq (le_antisymm h2 h3)
  subst this
  rw [e] at e'; cases e'
  exact hc (A.is.unique A'.is).le

theorem kFrom_cl_le (k : Kind) {w : W} {f g : Fl} (h : Cl (kF k w) f g) {s t : T w} {y z : ℝ} (es : kFrom L k w f = .ok s) (et : kFrom L k w g = .ok t)
    (hy : value k s = some y) (hz : value k t = some z) : y ≤ z := by
  obtain ⟨s', t', y', z', h1, h2, h3, h4, h5⟩ := kFrom_cl hL k hm h
  rw [es] at h1; rw [et] at h2; cases h1; cases h2
  rw [hy] at h3; rw [hz] at h4; cases h3; cases h4; exact h5

variable (hT : L.MonotoneTwo)
include hT

/-- What `power` of a positive base returns. -/
theorem power_number (k : Kind) {w : W} {a b : T w} {x z : ℝ} (hx : value k a = some x) (hz : value k b = some z) (h0 : 0 < x) :
    ∃ (r g : Fl) (v c : ℚ) (s : T w) (y : ℝ), kTo L k w a = .ok r ∧ kTo L k w b = .ok g ∧ Arg' k w r v x ∧ Arg' k w g c z ∧ 0 < v ∧
      BFun.power.call L k w a b = .ok s ∧ value k s = some y ∧ kFrom L k w (fixPower r g (L.pow (kF k w) r g)) = .ok s := by
  obtain ⟨r, v, e, A⟩ := kTo_acc hL k w hx
  obtain ⟨g, c, eg, B⟩ := kTo_acc hL k w hz
  have hF := kF_std k w
  have p := arg_positive A h0
  have rf := (hT.pow_exponent _ hF _ _ _ _ _ _ A.is B.is B.is A.isIn B.isIn B.isIn p le_rfl)
  have rf : Fl.le (L.pow (kF k w) r g) (L.pow (kF k w) r g) = true := (le_total 1 v).elim rf.1 rf.2
  obtain ⟨s, t, y, y', k1, -, k3, -⟩ := kFrom_cl hL k hm (pow_cl hL hF A.is B.is A.isIn B.isIn p A.is B.is A.isIn B.isIn p rf)
  exact ⟨r, g, v, c, s, y, e, eg, A, B, p, (bcall_eq (u := .power) e eg).trans k1, k3, k1⟩

/-- C124: `power` of a positive base is a number; it increases in the base for exponents that are at least 0 and decreases for exponents that are at most 0. -/
theorem power_base_monotone (k : Kind) (w : W) (a a' b : T w) (x x' z : ℝ) (hx : value k a = some x) (hx' : value k a' = some x') (hz : value k b = some z)
    (h0 : 0 < x) (h : x ≤ x') :
    ∃ (s t : T w) (y y' : ℝ), BFun.power.call L k w a b = .ok s ∧ BFun.power.call L k w a' b = .ok t ∧ value k s = some y ∧ value k t = some y' ∧
      (0 ≤ z → y ≤ y') ∧ (z ≤ 0 → y' ≤ y) := by
  have hF := kF_std k w
  obtain ⟨r, g, v, c, s, y, e, eg, A, B, p, es, hy, ks⟩ := power_number hL hm hT k hx hz h0
  obtain ⟨r', g', v', c', t, y', e', eg', A', B', p', et, hy', kt⟩ := power_number hL hm hT k hx' hz (h0.trans_le h)
  rw [eg] at eg'; cases eg'
  obtain ⟨m1, m2⟩ := hT.pow_base _ hF _ _ _ _ _ _ A.is A'.is B.is A.isIn A'.isIn B.isIn p (arg_le hL hm k hx hx' e A e' A' h)
  refine ⟨s, t, y, y', es, et, hy, hy', fun hz0 => ?_, fun hz0 => ?_⟩
  · have : 0 ≤ c := not_lt.mp fun h' => absurd (B.neg.mpr h') (not_lt.mpr hz0)
    exact kFrom_cl_le hL hm k (pow_cl hL hF A.is B.is A.isIn B.isIn p A'.is B.is A'.isIn B.isIn p' (m1 this)) ks kt hy hy'
  · have : c ≤ 0 := by
      rcases hz0.lt_or_eq with h | h
      · exact (B.neg.mp h).le
      · exact (B.zero.mp h).le
    exact kFrom_cl_le hL hm k (pow_cl hL hF A'.is B.is A'.isIn B.isIn p' A.is B.is A.isIn B.isIn p (m2 this)) kt ks hy' hy

/-- C124: it increases in the exponent for bases that are at least 1 and decreases for positive bases that are at most 1. -/
theorem power_exponent_monotone (k : Kind) (w : W) (a b b' : T w) (x z z' : ℝ) (hx : value k a = some x) (hz : value k b = some z) (hz' : value k b' = some z')
    (h0 : 0 < x) (h : z ≤ z') :
    ∃ (s t : T w) (y y' : ℝ), BFun.power.call L k w a b = .ok s ∧ BFun.power.call L k w a b' = .ok t ∧ value k s = some y ∧ value k t = some y' ∧
      (1 ≤ x → y ≤ y') ∧ (x ≤ 1 → y' ≤ y) := by
  have hF := kF_std k w
  obtain ⟨r, g, v, c, s, y, e, eg, A, B, p, es, hy, ks⟩ := power_number hL hm hT k hx hz h0
  obtain ⟨r', g', v', c', t, y', e', eg', A', B', p', et, hy', kt⟩ := power_number hL hm hT k hx hz' h0
  rw [e] at e'; cases e'
  obtain ⟨m1, m2⟩ := hT.pow_exponent _ hF _ _ _ _ _ _ A.is B.is B'.is A.isIn B.isIn B'.isIn p (arg_le hL hm k hz hz' eg B eg' B' h)
  have one := A.one
  have small := A.small
  rw [abs_of_pos h0, abs_of_pos p] at one small
  refine ⟨s, t, y, y', es, et, hy, hy', fun h1 => ?_, fun h1 => ?_⟩
  · have : 1 ≤ v := not_lt.mp fun h' => absurd (small.mpr h') (not_lt.mpr h1)
    exact kFrom_cl_le hL hm k (pow_cl hL hF A.is B.is A.isIn B.isIn p A.is B'.is A.isIn B'.isIn p (m1 this)) ks kt hy hy'
  · have : v ≤ 1 := by
      rcases h1.lt_or_eq with h | h
      · exact (small.mp h).le
      · exact (one.mp h).le
    exact kFrom_cl_le hL hm k (pow_cl hL hF A.is B'.is A.isIn B'.isIn p A.is B.is A.isIn B.isIn p (m2 this)) kt ks hy' hy

/-- C124: `hypotenuse` is a number and increases with the magnitudes of its arguments. -/
theorem hypotenuse_monotone (k : Kind) (w : W) (a b a' b' : T w) (x z x' z' : ℝ) (hx : value k a = some x) (hz : value k b = some z) (hx' : value k a' = some x')
    (hz' : value k b' = some z') (h1 : |x| ≤ |x'|) (h2 : |z| ≤ |z'|) :
    ∃ (s t : T w) (y y' : ℝ), BFun.hypotenuse.call L k w a b = .ok s ∧ BFun.hypotenuse.call L k w a' b' = .ok t ∧ value k s = some y ∧ value k t = some y' ∧ y ≤ y' := by
  have hF := kF_std k w
  have key : ∀ {a a' : T w} {x x' : ℝ}, value k a = some x → value k a' = some x' → |x| ≤ |x'| → ∃ r r' v v', kTo L k w a = .ok r ∧ kTo L k w a' = .ok r' ∧
      Arg' k w r v x ∧ Arg' k w r' v' x' ∧ |v| ≤ |v'| := by
    intro a a' x x' hx hx' h
    obtain ⟨r, -, g, v, -, b1, e, A, -, hg, -, eb, -, vb, kb⟩ := arg_abs hL k hx
    obtain ⟨r', -, g', v', -, b1', e', A', -, hg', -, eb', -, vb', kb'⟩ := arg_abs hL k hx'
    refine ⟨r, r', v, v', e, e', A, A', ?_⟩
    have nv : (kF k w).In |v| := ⟨A.isIn.1.abs, by rw [abs_abs]; exact A.isIn.2⟩
    have nv' : (kF k w).In |v'| := ⟨A'.isIn.1.abs, by rw [abs_abs]; exact A'.isIn.2⟩
    by_contra hc
    have h1 := kFrom_le hL k (fun _ => hm) hg' hg nv' nv (not_le.mp hc).le eb' eb vb' vb
    have h2 : b1 = b1' := BitVec.eq_of_toInt_eq (le_antisymm ((value_order k vb vb').mpr h) ((value_order k vb' vb).mpr h1))
    subst h2
    rw [kb] at kb'; cases kb'
    exact hc (hg.unique hg').le
  obtain ⟨r, r', v, v', e, e', A, A', l1⟩ := key hx hx' h1
  obtain ⟨g, g', c, c', f, f', B, B', l2⟩ := key hz hz' h2
  have hle := hT.hypot _ hF _ _ _ _ _ _ _ _ A.is B.is A'.is B'.is A.isIn B.isIn A'.isIn B'.isIn l1 l2
  obtain ⟨i1, n1⟩ := hT.hypot_type _ hF _ _ _ _ A.is B.is A.isIn B.isIn
  obtain ⟨i2, n2⟩ := hT.hypot_type _ hF _ _ _ _ A'.is B'.is A'.isIn B'.isIn
  have fx : ∀ {r g X : Fl}, Fl.le (.zero false) X = true → fixHypot r g X = fixSinh r X := by
    intro r g X h
    cases X with
    | inf s => cases s <;> first | rfl | cases h
    | _ => rfl
  have hc := cap_cl hF (x' := r) (y' := r') i1 i2 hle
  rw [← fx (g := g) n1, ← fx (g := g') n2] at hc
  obtain ⟨s, t, y, y', k1, k2, k3, k4, k5⟩ := kFrom_cl hL k hm hc
  exact ⟨s, t, y, y', (bcall_eq (u := .hypotenuse) e f).trans k1, (bcall_eq (u := .hypotenuse) e' f').trans k2, k3, k4, k5⟩

/-- `arctan2` and `arctan2_over_pi` of two pairs for which the results of the math library are ordered. -/
theorem arctan2_le (k : Kind) {w : W} {a b a' b' : T w} {r g r' g' : Fl} {v c v' c' : ℚ} {x z x' z' : ℝ} (e : kTo L k w a = .ok r) (f : kTo L k w b = .ok g)
    (e' : kTo L k w a' = .ok r') (f' : kTo L k w b' = .ok g') (A : Arg' k w r v x) (B : Arg' k w g c z) (A' : Arg' k w r' v' x') (B' : Arg' k w g' c' z')
    (hle : ∀ F, F = b64 ∨ F = x80 → F.In v → F.In c → F.In v' → F.In c' → Fl.le (L.atan2 F r g) (L.atan2 F r' g') = true) (u : BFun)
    (hu : u = .arctan2 ∨ u = .arctan2_over_pi) :
    ∀ s t y y', u.call L k w a b = .ok s → u.call L k w a' b' = .ok t → value k s = some y → value k t = some y' → y ≤ y' := by
  have hF := kF_std k w
  have fin : ∀ {X : Fl} {s : T w} {y : ℝ}, X.In (kF k w) → kFrom L k w X = .ok s → value k s = some y → ∃ q, X.Is q ∧ (kF k w).In q := by
    intro X s y hi e hy
    have hf : X.isfinite = true := by
      by_contra hc
      rw [kFrom_nonfinite L k w (by simpa using hc)] at e
      cases e
      exact value_ne hy rfl
    exact Fl.FinIn.is ⟨hi, hf⟩
  have key : ∀ {X Y : Fl}, X.In (kF k w) → Y.In (kF k w) → Fl.le X Y = true → ∀ s t y y', kFrom L k w X = .ok s → kFrom L k w Y = .ok t → value k s = some y →
      value k t = some y' → y ≤ y' := by
    intro X Y hX hY h s t y y' es et hy hy'
    obtain ⟨p, ip, np⟩ := fin hX es hy
    obtain ⟨q, iq, nq⟩ := fin hY et hy'
    exact kFrom_le hL k (fun _ => hm) ip iq np nq ((Fl.le_is ip iq).mp h) es et hy hy'
  have X2 : x80 = b64 ∨ x80 = x80 := Or.inr rfl
  have up : ∀ {q}, (kF k w).In q → x80.In q := fun h => kF_x80 h
  rw [bcall_eq e f, bcall_eq e' f']
  rcases hu with rfl | rfl
  · exact key (hT.atan2_type _ hF _ _ _ _ A.is B.is A.isIn B.isIn) (hT.atan2_type _ hF _ _ _ _ A'.is B'.is A'.isIn B'.isIn)
      (hle _ hF A.isIn B.isIn A'.isIn B'.isIn)
  · have t1 := hT.atan2_type _ X2 _ _ _ _ A.is B.is (up A.isIn) (up B.isIn)
    have t2 := hT.atan2_type _ X2 _ _ _ _ A'.is B'.is (up A'.isIn) (up B'.isIn)
    refine key (Fl.cast_type (std3 hF) _) (Fl.cast_type (std3 hF) _) ?_
    refine Fl.cast_le (std3 hF) (Fl.div_type X3 _ _).ne (Fl.div_type X3 _ _).ne ?_
    rw [PI_piX]
    exact Fl.div_pos_le X3 (by decide +kernel : (0 : ℚ) < piX) t1.ne t2.ne (hle _ X2 (up A.isIn) (up B.isIn) (up A'.isIn) (up B'.isIn))

/-- C124: `arctan2` and `arctan2_over_pi` increase in the first argument if the second is positive. -/
theorem arctan2_first_monotone (u : BFun) (hu : u = .arctan2 ∨ u = .arctan2_over_pi) (k : Kind) (w : W) (a a' b s t : T w) (x x' z y y' : ℝ)
    (hx : value k a = some x) (hx' : value k a' = some x') (hz : value k b = some z) (h0 : 0 < z) (h : x ≤ x') (es : u.call L k w a b = .ok s)
    (et : u.call L k w a' b = .ok t) (hy : value k s = some y) (hy' : value k t = some y') : y ≤ y' := by
  obtain ⟨r, v, e, A⟩ := kTo_acc hL k w hx
  obtain ⟨r', v', e', A'⟩ := kTo_acc hL k w hx'
  obtain ⟨g, c, f, B⟩ := kTo_acc hL k w hz
  exact arctan2_le hL hm hT k e f e' f A B A' B (fun F hF i1 i2 i3 i4 => hT.atan2 F hF _ _ _ _ _ _ A.is A'.is B.is i1 i3 i2 (arg_positive B h0)
    (arg_le hL hm k hx hx' e A e' A' h)) u hu s t y y' es et hy hy'

/-- C124: they decrease in the second argument if the first is positive and increase if it is negative. -/
theorem arctan2_second_monotone (u : BFun) (hu : u = .arctan2 ∨ u = .arctan2_over_pi) (k : Kind) (w : W) (a b b' s t : T w) (x z z' y y' : ℝ)
    (hx : value k a = some x) (hz : value k b = some z) (hz' : value k b' = some z') (h : z ≤ z') (es : u.call L k w a b = .ok s)
    (et : u.call L k w a b' = .ok t) (hy : value k s = some y) (hy' : value k t = some y') : (0 < x → y' ≤ y) ∧ (x < 0 → y ≤ y') := by
  obtain ⟨r, v, e, A⟩ := kTo_acc hL k w hx
  obtain ⟨g, c, f, B⟩ := kTo_acc hL k w hz
  obtain ⟨g', c', f', B'⟩ := kTo_acc hL k w hz'
  have l := arg_le hL hm k hz hz' f B f' B' h
  constructor
  · intro h0
    exact arctan2_le hL hm hT k e f' e f A B' A B (fun F hF i1 i2 i3 i4 => (hT.atan2_right F hF _ _ _ _ _ _ A.is B.is B'.is i1 i4 i2 l).1 (arg_positive A h0))
      u hu t s y' y et es hy' hy
  · intro h0
    exact arctan2_le hL hm hT k e f e f' A B A B' (fun F hF i1 i2 i3 i4 => (hT.atan2_right F hF _ _ _ _ _ _ A.is B.is B'.is i1 i2 i4 l).2 (A.neg.mp h0))
      u hu s t y y' es et hy hy'

end

/-- The hypotheses hold for the bases 3/2 and 2 and the exponents -2 and 3. -/
theorem mono_two_values : value .lin (0x4400#16 : T .w16) = some (3 / 2 : ℝ) ∧ value .lin (0x4800#16 : T .w16) = some (2 : ℝ) ∧
    value .lin (0x4A00#16 : T .w16) = some (3 : ℝ) ∧ value .lin (-0x4800#16 : T .w16) = some (-2 : ℝ) := by
  refine ⟨?_, ?_, ?_, ?_⟩
  · rw [value_lin (t := (0x4400#16 : T .w16)) (q := 3 / 2) (by decide +kernel)]; norm_num
  · rw [value_lin (t := (0x4800#16 : T .w16)) (q := 2) (by decide +kernel)]; norm_num
  · rw [value_lin (t := (0x4A00#16 : T .w16)) (q := 3) (by decide +kernel)]; norm_num
  · rw [value_lin (t := (-0x4800#16 : T .w16)) (q := -2) (by decide +kernel)]; norm_num

example : ∃ (s t : T .w16) (y y' : ℝ), BFun.power.call ideal .lin .w16 (0x4400#16) (-0x4800#16) = .ok s ∧
    BFun.power.call ideal .lin .w16 (0x4800#16) (-0x4800#16) = .ok t ∧ value .lin s = some y ∧ value .lin t = some y' ∧ y' ≤ y := by
  obtain ⟨h1, h2, -, h4⟩ := mono_two_values
  obtain ⟨s, t, y, y', e1, e2, e3, e4, -, e5⟩ := power_base_monotone ideal_conforming ideal_monotone.log ideal_monotone_two .lin .w16 _ _ _ _ _ _ h1 h2 h4
    (by norm_num) (by norm_num)
  exact ⟨s, t, y, y', e1, e2, e3, e4, e5 (by norm_num)⟩

example : ∃ (s t : T .w16) (y y' : ℝ), BFun.power.call ideal .lin .w16 (0x4400#16) (-0x4800#16) = .ok s ∧
    BFun.power.call ideal .lin .w16 (0x4400#16) (0x4A00#16) = .ok t ∧ value .lin s = some y ∧ value .lin t = some y' ∧ y ≤ y' := by
  obtain ⟨h1, -, h3, h4⟩ := mono_two_values
  obtain ⟨s, t, y, y', e1, e2, e3, e4, e5, -⟩ := power_exponent_monotone ideal_conforming ideal_monotone.log ideal_monotone_two .lin .w16 _ _ _ _ _ _ h1 h4 h3
    (by norm_num) (by norm_num)
  exact ⟨s, t, y, y', e1, e2, e3, e4, e5 (by norm_num)⟩

example : ∃ (s t : T .w16) (y y' : ℝ), BFun.hypotenuse.call ideal .lin .w16 (0x4400#16) (0x4800#16) = .ok s ∧
    BFun.hypotenuse.call ideal .lin .w16 (-0x4800#16) (0x4A00#16) = .ok t ∧ value .lin s = some y ∧ value .lin t = some y' ∧ y ≤ y' := by
  obtain ⟨h1, h2, h3, h4⟩ := mono_two_values
  exact hypotenuse_monotone ideal_conforming ideal_monotone.log ideal_monotone_two .lin .w16 _ _ _ _ _ _ _ _ h1 h2 h4 h3 (by norm_num [abs_of_pos]) (by norm_num [abs_of_pos])

/-- `arctan2(-2, 3/2) ≤ arctan2(3, 3/2)` -/
example : ∃ (s t : T .w16) (y y' : ℝ), BFun.arctan2_over_pi.call ideal .lin .w16 (-0x4800#16) (0x4400#16) = .ok s ∧
    BFun.arctan2_over_pi.call ideal .lin .w16 (0x4A00#16) (0x4400#16) = .ok t ∧ value .lin s = some y ∧ value .lin t = some y' ∧ y ≤ y' := by
  obtain ⟨h1, -, h3, h4⟩ := mono_two_values
  obtain ⟨s, y, es, hy, -⟩ := arctan2_over_pi_range ideal_conforming ideal_angles .lin .w16 _ _ _ _ h4 h1
  obtain ⟨t, y', et, hy', -⟩ := arctan2_over_pi_range ideal_conforming ideal_angles .lin .w16 _ _ _ _ h3 h1
  exact ⟨s, t, y, y', es, et, hy, hy', arctan2_first_monotone ideal_conforming ideal_monotone.log ideal_monotone_two .arctan2_over_pi (Or.inr rfl) .lin .w16 _ _ _ _ _ _ _ _ _ _
    h4 h3 h1 (by norm_num) (by norm_num) es et hy hy'⟩

/-- `arctan2(-2, 3/2) ≤ arctan2(-2, 3)` -/
example : ∃ (s t : T .w16) (y y' : ℝ), BFun.arctan2_over_pi.call ideal .lin .w16 (-0x4800#16) (0x4400#16) = .ok s ∧
    BFun.arctan2_over_pi.call ideal .lin .w16 (-0x4800#16) (0x4A00#16) = .ok t ∧ value .lin s = some y ∧ value .lin t = some y' ∧ y ≤ y' := by
  obtain ⟨h1, -, h3, h4⟩ := mono_two_values
  obtain ⟨s, y, es, hy, -⟩ := arctan2_over_pi_range ideal_conforming ideal_angles .lin .w16 _ _ _ _ h4 h1
  obtain ⟨t, y', et, hy', -⟩ := arctan2_over_pi_range ideal_conforming ideal_angles .lin .w16 _ _ _ _ h4 h3
  exact ⟨s, t, y, y', es, et, hy, hy', (arctan2_second_monotone ideal_conforming ideal_monotone.log ideal_monotone_two .arctan2_over_pi (Or.inr rfl) .lin .w16 _ _ _ _ _ _ _ _ _ _
    h4 h1 h3 (by norm_num) es et hy hy').2 (by norm_num)⟩

end Takum
