import Verif.Lemmas.Symmetry
import Verif.Lemmas.ElemArg
import Verif.Lemmas.ConvAcc
import Verif.Props.PiTimes

/-! # Symmetries: the argument and the result of a call -/

namespace Takum
open Spec

theorem kTo_nar (L : Libm) (hL : L.Conforming) (k : Kind) (w : W) : kTo L k w (nar w.n) = .ok .nan := by
  cases k
  · exact logTo_nar hL.nans.pow_right .ext w
  · exact linTo_src_nar w

theorem kTo_zero (L : Libm) (hL : L.Conforming) (k : Kind) (w : W) : kTo L k w 0#w.n = .ok (.zero false) := by
  cases k
  · exact logTo_zero hL.powers .ext w
  · exact linTo_zero w

theorem kFrom_zero (L : Libm) (k : Kind) (w : W) (s : Bool) : kFrom L k w (.zero s) = .ok 0#w.n := by
  cases k
  · exact logFrom_zero L .ext w s
  · exact linFrom_zero w.src w s

theorem kFrom_nonfinite (L : Libm) (k : Kind) (w : W) {f : Fl} (h : f.isfinite = false) : kFrom L k w f = .ok (nar w.n) := by
  cases k
  · exact logFrom_nonfinite L .ext w h
  · cases f with
    | nan => exact linFrom_nan w.src w
    | inf s => exact linFrom_inf w.src w s
    | _ => cases h

/-- The argument of a takum other than 0 and NaR, and of its negation. -/
theorem kTo_neg {L : Libm} (hL : L.Conforming) (k : Kind) (w : W) {t : T w} (ht : Regular t) :
    ∃ v : ℚ, v ≠ 0 ∧ kTo L k w t = .ok (.num v) ∧ kTo L k w (-t) = .ok (.num (-v)) ∧ (Fl.num v).In (kF k w) ∧
      (k = .lin → v = qv t) := by
  have h5 : 5 ≤ w.n := by have := w.n_pos; omega
  obtain ⟨-, -, rn, -⟩ := regular_neg h5 ht
  cases k
  · obtain ⟨f, e, i, hi, -⟩ := logTo_xv hL.powers (A := .ext) (by decide) ht.2
    obtain ⟨f', e', i', -⟩ := logTo_xv hL.powers (A := .ext) (by decide) rn.2
    rw [xv_neg hL.powers hL.specials (by decide) ht.2] at i'
    obtain ⟨g, v, e2, i2, -, z2, -⟩ := logTo_ext hL.powers w ht.2
    have hg : f = g := by rw [e] at e2; injection e2
    subst hg
    have hv := i.unique i2
    have h0 : xv L .ext w t ≠ 0 := by rw [hv]; exact fun h => ht.1 (z2.mp h)
    refine ⟨_, h0, ?_, ?_, ⟨h0, hi⟩, by simp⟩
    · show logTo L .ext w t = _; rw [e, i.eq_num h0]
    · show logTo L .ext w (-t) = _; rw [e', i'.eq_num (neg_ne_zero.mpr h0)]
  · obtain ⟨f, e, i⟩ := linTo_src w ht.2
    obtain ⟨f', e', i'⟩ := linTo_src w rn.2
    have h0 := qv_ne ht
    rw [qv_neg ht.2] at i'
    obtain ⟨r, v, e3, ha⟩ := kTo_acc hL .lin w (value_lin (linVal_qv ht.2))
    have hg : f = r := by
      change linTo w.src w t = _ at e3
      rw [e] at e3; injection e3
    subst hg
    have hv := i.unique ha.is
    refine ⟨_, h0, ?_, ?_, ⟨h0, by rw [hv]; exact ha.isIn⟩, by simp⟩
    · show linTo w.src w t = _; rw [e, i.eq_num h0]
    · show linTo w.src w (-t) = _; rw [e', i'.eq_num (neg_ne_zero.mpr h0)]

theorem value_neg {n : ℕ} (hn : 5 ≤ n) (k : Kind) (t : BitVec n) : value k (-t) = (value k t).map (- ·) := by
  obtain ⟨h1, h2, -⟩ := neg_value hn t
  cases k
  · exact h1
  · show (linVal (-t)).map _ = ((linVal t).map _).map _
    rw [h2]; cases linVal t <;> simp

theorem value_some {n : ℕ} {k : Kind} {t : BitVec n} (h : t ≠ nar n) : ∃ x, value k t = some x := by
  rw [Ne, ← value_none (k := k)] at h
  exact Option.ne_none_iff_exists'.mp h

/-- Two faithful roundings of opposite numbers are at most one unit from opposite. -/
theorem faithful_opposite {n : ℕ} (hn : 5 ≤ n) {k : Kind} {y : ℝ} {t t' : BitVec n} (h : Faithful k y t) (h' : Faithful k (-y) t') :
    |t.toInt + t'.toInt| ≤ 1 := by
  have hp : (1 : ℕ) ≤ n := by omega
  have p2 : (2 : ℤ) ≤ 2 ^ (n - 1) := by
    have : (2 : ℤ) ^ 1 ≤ 2 ^ (n - 1) := pow_le_pow_right₀ (by norm_num) (by omega)
    simpa using this
  have h2n : 2 * (2 : ℤ) ^ (n - 1) = 2 ^ n := by rw [← pow_succ']; congr 1; omega
  have b1 := BitVec.two_mul_toInt_lt (x := t)
  have b2 := BitVec.two_mul_toInt_lt (x := t')
  have c1 := nar_lt hp h.1
  have c2 := nar_lt hp h'.1
  rw [nar_toInt hp] at c1 c2
  have key : ∀ d : ℤ, -2 ^ (n - 1) < d → d < 2 ^ (n - 1) → ∃ (u : BitVec n) (x : ℝ), u.toInt = d ∧ (-u).toInt = -d ∧
      value k u = some x ∧ value k (-u) = some (-x) := by
    intro d d1 d2
    have hu : (BitVec.ofInt n d).toInt = d := by
      rw [BitVec.toInt_ofInt, Int.bmod_eq_of_le] <;> push_cast <;> omega
    have hnar : BitVec.ofInt n d ≠ nar n := by
      intro e
      rw [e, nar_toInt hp] at hu
      omega
    obtain ⟨x, hx⟩ := value_some (k := k) hnar
    refine ⟨_, x, hu, by rw [toInt_neg_nar hn hnar, hu], hx, by rw [value_neg hn, hx]; rfl⟩
  rw [abs_le]
  constructor
  · by_contra hc
    obtain ⟨u, x, e1, e2, v1, v2⟩ := key (t.toInt + 1) (by omega) (by omega)
    have g1 := (h.2.2 _ _ v1).1
    have g2 := (h'.2.2 _ _ v2).1
    rcases le_total x y with hxy | hxy
    · have := g1 hxy; omega
    · have := g2 (by linarith); omega
  · by_contra hc
    obtain ⟨u, x, e1, e2, v1, v2⟩ := key (t.toInt - 1) (by omega) (by omega)
    have g1 := (h.2.2 _ _ v1).2
    have g2 := (h'.2.2 _ _ v2).2
    rcases le_total y x with hxy | hxy
    · have := g1 hxy; omega
    · have := g2 (by linarith); omega

/-- What the conversion of the opposite float is to the conversion of the float. -/
def Opposite {n : ℕ} : Kind → BitVec n → BitVec n → Prop
  | .lin, a, b => b = -a
  | .log, a, b => b = -a ∨ (Regular a ∧ Regular b ∧ |a.toInt + b.toInt| ≤ 1)

theorem Opposite.neg {n : ℕ} (k : Kind) (a : BitVec n) : Opposite k a (-a) := by
  cases k
  · exact Or.inl rfl
  · exact rfl

theorem src_not (w : W) : ¬ (w.src = .ext ∧ w = .w16) := by cases w <;> decide

theorem kFrom_neg {L : Libm} (hL : L.Conforming) (k : Kind) (w : W) {f : Fl} (hf : f.In (kF k w)) :
    ∃ a b : T w, kFrom L k w f = .ok a ∧ kFrom L k w f.neg = .ok b ∧ Opposite k a b := by
  have h8 := w.n_pos
  have e0 : -(0#w.n) = 0#w.n := by simp
  have en : -(nar w.n) = nar w.n := ((neg_value (by omega : 5 ≤ w.n) _).2.2).mpr (Or.inr rfl)
  cases f with
  | nan => exact ⟨_, _, kFrom_nonfinite L k w rfl, kFrom_nonfinite L k w rfl, by simpa [en] using Opposite.neg k (nar w.n)⟩
  | inf s => exact ⟨_, _, kFrom_nonfinite L k w rfl, kFrom_nonfinite L k w rfl, by simpa [en] using Opposite.neg k (nar w.n)⟩
  | zero s => exact ⟨_, _, kFrom_zero L k w s, kFrom_zero L k w (!s), by simpa [e0] using Opposite.neg k (0#w.n)⟩
  | num z =>
    obtain ⟨hz, hi⟩ := hf
    cases k
    · have i1 : (Fl.num z).Is z := Fl.Is.num hz
      have i2 : (Fl.num z).neg.Is (-z) := Fl.Is.num (neg_ne_zero.mpr hz)
      obtain ⟨r, h1, h2, h3⟩ := hL.logs.finite _ (logF_std .ext w) |z| (abs_pos.mpr hz) ⟨(logF_in .ext w hi).1.abs, by rw [abs_abs]; exact (logF_in .ext w hi).2⟩
      obtain ⟨t1, t2⟩ := twoLog_is (logF_std .ext w) i1 hz h1 h2 h3
      have hb : |2 * r| ≤ 2 ^ 101 := by rw [abs_mul, abs_two]; linarith [show (2 : ℚ) ^ 101 = 2 * 2 ^ 100 by norm_num]
      obtain ⟨a, ea, fa⟩ := logEnc_faithful .ext w (decide (z < 0)) t1 t2.1 hb
      obtain ⟨b, eb, fb⟩ := logEnc_faithful .ext w (decide (-z < 0)) t1 t2.1 hb
      obtain ⟨a', ea', ra, -⟩ := logEnc_regular .ext w (decide (z < 0)) t1 t2.1 hb
      obtain ⟨b', eb', rb, -⟩ := logEnc_regular .ext w (decide (-z < 0)) t1 t2.1 hb
      rw [ea] at ea'; rw [eb] at eb'
      injection ea' with ea'; injection eb' with eb'
      subst ea' eb'
      have hs : (sg (decide (-z < 0)) : ℚ) = -(sg (decide (z < 0)) : ℚ) := by
        rcases lt_or_gt_of_ne hz with h | h
        · simp [h, not_lt.mpr h.le, sg]
        · simp [h, not_lt.mpr h.le, sg]
      rw [hs] at fb
      refine ⟨a, b, ?_, ?_, Or.inr ⟨ra, rb, faithful_opposite (by omega) fa (by simpa using fb)⟩⟩
      · show logFrom L .ext w _ = _; rw [logFrom_eq L .ext w i1 hz, ea]
      · show logFrom L .ext w _ = _
        rw [logFrom_eq L .ext w i2 (neg_ne_zero.mpr hz), ← eb]
        congr 1
        unfold twoLog
        show Fl.mul _ _ (L.log _ (.num |(-z)|)) = Fl.mul _ _ (L.log _ (.num |z|))
        rw [abs_neg]
    · obtain ⟨t, e1, e2⟩ := linFrom_neg w.src w (src_not w) (Fl.Is.num hz) hz hi
      exact ⟨t, -t, e1, e2, rfl⟩

/-- A call of an odd function. -/
theorem call_odd {L : Libm} (hL : L.Conforming) (hS : L.Symmetric) {u : UFun} (hu : u.isOdd = true) (k : Kind) (w : W) (t : T w) :
    ∃ a b : T w, u.call L k w t = .ok a ∧ u.call L k w (-t) = .ok b ∧ Opposite k a b := by
  have h8 := w.n_pos
  have e0 : -(0#w.n) = 0#w.n := by simp
  have en : -(nar w.n) = nar w.n := ((neg_value (by omega : 5 ≤ w.n) _).2.2).mpr (Or.inr rfl)
  by_cases h0 : t = 0#w.n
  · subst h0
    rw [e0]
    have e := call_eq (u := u) (kTo_zero L hL k w)
    rcases ev_zero_odd hL hS hu (kF_std k w) with ⟨s, h⟩ | h
    · rw [h, kFrom_zero] at e
      exact ⟨_, _, e, e, by simpa [e0] using Opposite.neg k (0#w.n)⟩
    · rw [kFrom_nonfinite L k w h] at e
      exact ⟨_, _, e, e, by simpa [en] using Opposite.neg k (nar w.n)⟩
  by_cases h1 : t = nar w.n
  · subst h1
    rw [en]
    have e := call_eq (u := u) (kTo_nar L hL k w)
    rw [ev_nan hL.nans, fix_nan, kFrom_nonfinite L k w rfl] at e
    exact ⟨_, _, e, e, by simpa [en] using Opposite.neg k (nar w.n)⟩
  obtain ⟨v, hv, ev, ev', hi, -⟩ := kTo_neg hL k w ⟨h0, h1⟩
  obtain ⟨o1, o2⟩ := ev_odd hS hu (kF_std k w) hi
  obtain ⟨f1, f2⟩ := fix_odd hu (kF_std k w) hv o2
  obtain ⟨a, b, ea, eb, hab⟩ := kFrom_neg hL k w f2
  refine ⟨a, b, by rw [call_eq ev, ea], ?_, hab⟩
  rw [call_eq ev', ← eb, ← f1, ← o1]; rfl

/-- A call of an even function. -/
theorem call_even {L : Libm} (hL : L.Conforming) (hS : L.Symmetric) {u : UFun} (hu : u.isEven = true) (k : Kind) (w : W) (t : T w) :
    u.call L k w (-t) = u.call L k w t := by
  have h8 := w.n_pos
  have en : -(nar w.n) = nar w.n := ((neg_value (by omega : 5 ≤ w.n) _).2.2).mpr (Or.inr rfl)
  by_cases h0 : t = 0#w.n
  · subst h0; simp
  by_cases h1 : t = nar w.n
  · subst h1; rw [en]
  obtain ⟨v, hv, ev, ev', hi, -⟩ := kTo_neg hL k w ⟨h0, h1⟩
  have o := (ev_even hS hu (kF_std k w) hi).1
  have hf : ∀ x y, u.fix (.num x) y = u.fix (.num (-x)) y := by
    intro x y
    cases u <;> first | (cases hu; done) | rfl
  rw [call_eq ev, call_eq ev', hf v, ← o]; rfl

/-! ## The functions with the factor `π` -/

theorem fmod_half {q c : ℚ} (hq : ∀ j : ℤ, 2 * q ≠ j) {m : ℕ} {i : ℤ} (hc : 2 * c = i) {f : Fl} (hf : f.Is c) (h0 : q ≠ 0) :
    Fl.eq (Fl.fmod (.num q) (.num m)) f = false := by
  rw [Bool.eq_false_iff]
  intro h
  have e := (Fl.eq_iff (fmod_is (p := m) (Fl.Is.num h0)) hf).mp h
  generalize hk : Fl.trunc (q / (m : ℚ)) = k at e
  apply hq (i + k * m * 2)
  push_cast
  linarith

theorem evl_pi {L : Libm} (hS : L.Symmetric) {q : ℚ} (hq : ∀ j : ℤ, 2 * q ≠ j) (hi : (Fl.num q).In x80) :
    (∀ u : UFun, u.isOddPi = true → u.evl L (.num (-q)) = (u.evl L (.num q)).neg ∧ (u.evl L (.num q)).In x80) ∧
    ∀ u : UFun, u.isEvenPi = true → u.evl L (.num (-q)) = u.evl L (.num q) := by
  have h0 : q ≠ 0 := hi.1
  have hq' : ∀ j : ℤ, 2 * (-q) ≠ j := fun j h => hq (-j) (by push_cast; linarith)
  have X : x80 = b64 ∨ x80 = x80 := Or.inr rfl
  have X3 := std3 X
  obtain ⟨p, hp, hp0⟩ := pi_num
  have two : (Fl.num 2) = Fl.num ((2 : ℕ) : ℚ) := rfl
  have one : (Fl.num 1) = Fl.num ((1 : ℕ) : ℚ) := by norm_num
  have key : ∀ {q : ℚ}, (∀ j : ℤ, 2 * q ≠ j) → q ≠ 0 → ∀ m : ℕ,
      Fl.eq (Fl.fmod (.num q) (.num m)) (.zero false) = false ∧ Fl.eq (Fl.fmod (.num q) (.num m)) (.num (1 / 2)) = false ∧
      Fl.eq (Fl.fmod (.num q) (.num m)) (.num 1) = false ∧ Fl.eq (Fl.fmod (.num q) (.num m)) (.num (3 / 2)) = false := by
    intro q hq h0 m
    exact ⟨fmod_half hq (i := 0) (by norm_num) (Fl.Is.zero false) h0, fmod_half hq (i := 1) (by norm_num) (Fl.Is.num (by norm_num)) h0,
      fmod_half hq (i := 2) (by norm_num) (Fl.Is.num (by norm_num)) h0, fmod_half hq (i := 3) (by norm_num) (Fl.Is.num (by norm_num)) h0⟩
  have def2 : ∀ {q : ℚ}, (∀ j : ℤ, 2 * q ≠ j) → q ≠ 0 → UFun.evl L .sin_pi_times (.num q) = UFun.evl L .sin (Fl.mul x80 PI (.num q)) ∧
      UFun.evl L .cos_pi_times (.num q) = UFun.evl L .cos (Fl.mul x80 PI (.num q)) ∧
      UFun.evl L .tan_pi_times (.num q) = UFun.evl L .tan (Fl.mul x80 PI (.num q)) ∧
      UFun.evl L .csc_pi_times (.num q) = UFun.evl L .csc (Fl.mul x80 PI (.num q)) ∧
      UFun.evl L .sec_pi_times (.num q) = UFun.evl L .sec (Fl.mul x80 PI (.num q)) ∧
      UFun.evl L .cot_pi_times (.num q) = UFun.evl L .cot (Fl.mul x80 PI (.num q)) := by
    intro q hq h0
    obtain ⟨a1, a2, a3, a4⟩ := key hq h0 2
    obtain ⟨b1, b2, -⟩ := key hq h0 1
    rw [← two] at a1 a2 a3 a4
    rw [← one] at b1 b2
    simp only [UFun.evl, sinpil, cospil, tanpil, cscPiTimesl, secPiTimesl, cotPiTimesl, a1, a2, a3, a4, b1, b2, Bool.false_eq_true, if_false,
      and_self]
  have hm : Fl.mul x80 PI (.num (-q)) = (Fl.mul x80 PI (.num q)).neg := by
    rw [hp]
    exact Fl.mul_num_neg (x := .num q) hi.ne hp0
  have ht : (Fl.mul x80 PI (.num q)).In x80 := Fl.mul_type X3 _ _
  obtain ⟨p1, p2, p3, p4, p5, p6⟩ := def2 hq h0
  obtain ⟨n1, n2, n3, n4, n5, n6⟩ := def2 hq' (neg_ne_zero.mpr h0)
  rw [hm] at n1 n2 n3 n4 n5 n6
  constructor
  · intro u hu
    cases u <;> first | (cases hu; done) | skip
    · rw [n1, p1]; exact evl_odd hS rfl ht
    · rw [n3, p3]; exact evl_odd hS rfl ht
    · rw [n4, p4]; exact evl_odd hS rfl ht
    · rw [n6, p6]; exact evl_odd hS rfl ht
  · intro u hu
    cases u <;> first | (cases hu; done) | skip
    · rw [n2, p2]; exact (ev_even hS rfl X ht).2
    · rw [n5, p5]; exact (ev_even hS rfl X ht).2

theorem call_pi {L : Libm} (hL : L.Conforming) (hS : L.Symmetric) (w : W) {t : T w} (ht : Regular t) (hq : ∀ j : ℤ, 2 * qv t ≠ j) :
    (∀ u : UFun, u.isOddPi = true → ∃ v, u.call L .lin w t = .ok v ∧ u.call L .lin w (-t) = .ok (-v)) ∧
    ∀ u : UFun, u.isEvenPi = true → u.call L .lin w (-t) = u.call L .lin w t := by
  obtain ⟨v, hv, ev, ev', hi, hq'⟩ := kTo_neg hL .lin w ht
  have := hq' rfl
  subst this
  have hx : (Fl.num (qv t)).In x80 := by
    rcases kF_std .lin w with h | h
    · rw [h] at hi; exact In_b64_x80 hi
    · rw [h] at hi; exact hi
  obtain ⟨o, e⟩ := evl_pi hS hq hx
  constructor
  · intro u hu
    obtain ⟨o1, o2⟩ := o u hu
    have hev : u.ev L (kF .lin w) (.num (-qv t)) = (u.ev L (kF .lin w) (.num (qv t))).neg ∧ (u.ev L (kF .lin w) (.num (qv t))).In (kF .lin w) := by
      rcases kF_std .lin w with h | h
      · rw [h, ev_b64, ev_b64]
        have c : u.evd L (.num (-qv t)) = (u.evd L (.num (qv t))).neg ∧ (u.evd L (.num (qv t))).In b64 := by
          have d : ∀ f, u.evd L f = Fl.cast b64 (u.evl L f) := by
            intro f; cases u <;> first | (cases hu; done) | rfl
          rw [d, d, o1]
          exact ⟨Fl.cast_neg o2.ne, Fl.cast_type (std3 (Or.inl rfl)) _⟩
        exact c
      · rw [h, ev_x80, ev_x80]; exact ⟨o1, o2⟩
    have hf : ∀ x y, u.fix x y = y := by intro x y; cases u <;> first | (cases hu; done) | rfl
    obtain ⟨a, b, ea, eb, hab⟩ := kFrom_neg (L := L) hL .lin w hev.2
    refine ⟨a, by rw [call_eq ev, hf, ea], ?_⟩
    rw [call_eq ev', hf, hev.1, eb]
    exact congrArg _ hab
  · intro u hu
    have d : ∀ F, F = b64 ∨ F = x80 → u.ev L F (.num (-qv t)) = u.ev L F (.num (qv t)) := by
      intro F hF
      rcases hF with rfl | rfl
      · have d : ∀ f, u.evd L f = Fl.cast b64 (u.evl L f) := by
          intro f; cases u <;> first | (cases hu; done) | rfl
        rw [ev_b64, ev_b64, d, d, e u hu]
      · rw [ev_x80, ev_x80, e u hu]
    have hf : ∀ x y, u.fix x y = y := by intro x y; cases u <;> first | (cases hu; done) | rfl
    rw [call_eq ev, call_eq ev', hf, hf, d _ (kF_std .lin w)]

/-! ## The functions of two arguments -/

/-- Any argument. -/
theorem kTo_any {L : Libm} (hL : L.Conforming) (k : Kind) (w : W) (t : T w) :
    ∃ r : Fl, kTo L k w t = .ok r ∧ r.In (kF k w) := by
  by_cases h0 : t = 0#w.n
  · subst h0; exact ⟨_, kTo_zero L hL k w, trivial⟩
  by_cases h1 : t = nar w.n
  · subst h1; exact ⟨_, kTo_nar L hL k w, trivial⟩
  obtain ⟨v, hv, ev, ev', hi, -⟩ := kTo_neg hL k w ⟨h0, h1⟩
  exact ⟨_, ev, hi⟩

theorem bcall_hypot {L : Libm} (hL : L.Conforming) (hS : L.Symmetric) (k : Kind) (w : W) (a b : T w) :
    BFun.hypotenuse.call L k w b a = BFun.hypotenuse.call L k w a b ∧ BFun.hypotenuse.call L k w (-a) b = BFun.hypotenuse.call L k w a b := by
  have h8 := w.n_pos
  have en : -(nar w.n) = nar w.n := ((neg_value (by omega : 5 ≤ w.n) _).2.2).mpr (Or.inr rfl)
  obtain ⟨x, ex, ix⟩ := kTo_any hL k w a
  obtain ⟨y, ey, iy⟩ := kTo_any hL k w b
  constructor
  · rw [bcall_eq ex ey, bcall_eq ey ex]
    show kFrom L k w (fixHypot y x (L.hypot (kF k w) y x)) = kFrom L k w (fixHypot x y (L.hypot (kF k w) x y))
    rw [hS.hypot_comm _ (kF_std k w) x y ix iy]; rfl
  · by_cases h0 : a = 0#w.n
    · subst h0; simp
    by_cases h1 : a = nar w.n
    · subst h1; rw [en]
    obtain ⟨v, hv, ev, ev', hi, -⟩ := kTo_neg hL k w ⟨h0, h1⟩
    rw [bcall_eq ev ey, bcall_eq ev' ey]
    show kFrom L k w (fixHypot (.num (-v)) y (L.hypot (kF k w) (Fl.num v).neg y)) = kFrom L k w (fixHypot (.num v) y (L.hypot (kF k w) (.num v) y))
    rw [hS.hypot_neg _ (kF_std k w) _ y hi iy]; rfl

theorem bcall_arctan2 {L : Libm} (hL : L.Conforming) (hS : L.Symmetric) {u : BFun} (hu : u = .arctan2 ∨ u = .arctan2_over_pi) (k : Kind) (w : W)
    {a : T w} (b : T w) (ha : a ≠ 0#w.n) :
    ∃ c d : T w, u.call L k w a b = .ok c ∧ u.call L k w (-a) b = .ok d ∧ Opposite k c d := by
  have h8 := w.n_pos
  have en : -(nar w.n) = nar w.n := ((neg_value (by omega : 5 ≤ w.n) _).2.2).mpr (Or.inr rfl)
  obtain ⟨y, ey, iy⟩ := kTo_any hL k w b
  have X : x80 = b64 ∨ x80 = x80 := Or.inr rfl
  have up : ∀ {x : Fl}, x.In (kF k w) → x.In x80 := by
    intro x h
    rcases kF_std k w with e | e
    · rw [e] at h; exact In_b64_x80 h
    · rw [e] at h; exact h
  have hev : ∀ x : Fl, x.In (kF k w) → u.ev L (kF k w) x.neg y = (u.ev L (kF k w) x y).neg ∧ (u.ev L (kF k w) x y).In (kF k w) := by
    intro x hx
    rcases hu with rfl | rfl
    · exact ⟨hS.atan2_neg _ (kF_std k w) x y hx iy, hS.atan2_type _ (kF_std k w) x y hx iy⟩
    · obtain ⟨p, hp, hp0⟩ := pi_num
      have t1 := hS.atan2_type _ X x y (up hx) (up iy)
      have e1 : Fl.div x80 (L.atan2 x80 x.neg y) PI = (Fl.div x80 (L.atan2 x80 x y) PI).neg := by
        rw [hS.atan2_neg _ X x y (up hx) (up iy), hp]
        exact Fl.div_num_neg t1.ne hp0
      have t2 : (Fl.div x80 (L.atan2 x80 x y) PI).In x80 := Fl.div_type (std3 X) _ _
      refine ⟨?_, Fl.cast_type (std3 (kF_std k w)) _⟩
      show Fl.cast _ _ = (Fl.cast _ _).neg
      rw [e1, Fl.cast_neg t2.ne]
  have hf : ∀ x y z, u.fix x y z = z := by
    intro x y z
    rcases hu with rfl | rfl <;> rfl
  by_cases h1 : a = nar w.n
  · subst h1
    rw [en]
    have ea := kTo_nar L hL k w
    have e := bcall_eq (u := u) ea ey
    have hn : (u.ev L (kF k w) .nan y).isfinite = false := by
      rcases hu with rfl | rfl
      · show (L.atan2 _ _ _).isfinite = _; rw [hL.nans.atan2_left]; rfl
      · show (Fl.cast _ (Fl.div _ (L.atan2 _ _ _) _)).isfinite = _; rw [hL.nans.atan2_left]; rfl
    rw [hf, kFrom_nonfinite L k w hn] at e
    exact ⟨_, _, e, e, by simpa [en] using Opposite.neg k (nar w.n)⟩
  obtain ⟨v, hv, ev, ev', hi, -⟩ := kTo_neg hL k w ⟨ha, h1⟩
  obtain ⟨o1, o2⟩ := hev _ hi
  obtain ⟨c, d, ec, ed, hcd⟩ := kFrom_neg hL k w o2
  refine ⟨c, d, by rw [bcall_eq ev ey, hf, ec], ?_, hcd⟩
  rw [bcall_eq ev' ey, hf, ← ed, ← o1]; rfl

end Takum
