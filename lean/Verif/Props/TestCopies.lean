import Verif.Props.TestArithmetic
import Verif.Props.Domains
import Verif.Props.PiTimes
import Verif.Props.TestOracle

/-!
# C87: the reference functions of the tests of the elementary functions are the tested functions
-/

namespace Takum.Test
open Takum Spec

theorem cast_in {F : Fmt} {x : Fl} (h : x.In F) : Fl.cast F x = x := by
  cases x with
  | num q =>
    show Fl.round F false q = _
    rw [Fl.round_of_in h.2]; unfold Fl.mk; rw [if_neg h.1]
  | _ => rfl

theorem div_x80 (x y : Fl) : (Fl.div x80 x y).In x80 := by
  have r : ∀ z q, (Fl.round x80 z q).In x80 := fun z q => (tame_round (Or.inr rfl) z q).2
  cases x <;> cases y <;> first | exact trivial | exact r _ _

/-- C87. The `long double` function that the library uses is the function that the test takes as
reference, for every mathematical library. -/
theorem reference_copies (L : Libm) : (∀ u, refU L u = u.evl L) ∧ ∀ u, refB L u = u.ev L x80 := by
  constructor
  · intro u; cases u <;> rfl
  · intro u
    cases u <;> first | rfl | skip
    funext a b
    exact (cast_in (div_x80 _ _)).symm

/-- C87. For logarithmic takums and for linear takums of 64 bits the function and its test convert the
same number, unless the function replaces an infinite or zero result: the test passes with no
difference, for every mathematical library, whatever it computes. -/
theorem copies_pass {E : Env} (u : UFun) {k : Kind} {w : W} (hk : k = .log ∨ w = .w64) (t : T w) {a : Fl}
    (ha : toExt E.L k w t = .ok a) (hfix : u.fix a (refU E.L u a) = refU E.L u a)
    (hfl : E.flags k w t.toInt 0 = (false, false)) :
    u.call E.L k w t = fromExt E.L k w (refU E.L u a) ∧ PassedUnary E (refU E.L u) (u.call E.L) k w t := by
  obtain ⟨v, hv⟩ := fromExt_ok E.L k w (refU E.L u a)
  have hr := congrFun ((reference_copies E.L).1 u) a
  have e : u.call E.L k w t = fromExt E.L k w (refU E.L u a) := by
    cases k
    · rw [call_eq (k := .log) ha]
      show logFrom E.L .ext w (u.fix a (u.ev E.L x80 a)) = logFrom E.L .ext w _
      rw [ev_x80, ← hr, hfix]
    · obtain rfl : w = .w64 := by rcases hk with h | h; exacts [absurd h (by simp), h]
      rw [call_eq (k := .lin) (w := .w64) ha]
      show linFrom .ext .w64 (u.fix a (u.ev E.L x80 a)) = linFrom .ext .w64 _
      rw [ev_x80, ← hr, hfix]
  exact ⟨e, unary_near hfl ha (e.trans hv) hv (by simp) (fun _ => rfl)⟩

/-- C87. The same for the functions of two arguments. -/
theorem copies_pass2 {E : Env} (u : BFun) {k : Kind} {w : W} (hk : k = .log ∨ w = .w64) (s t : T w) {a b : Fl}
    (ha : toExt E.L k w s = .ok a) (hb : toExt E.L k w t = .ok b)
    (hfix : u.fix a b (refB E.L u a b) = refB E.L u a b) (hfl : E.flags k w s.toInt t.toInt = (false, false)) :
    u.call E.L k w s t = fromExt E.L k w (refB E.L u a b) ∧
      PassedBinary E (refB E.L u) (u.call E.L) k w s t := by
  obtain ⟨v, hv⟩ := fromExt_ok E.L k w (refB E.L u a b)
  have hr := congrFun (congrFun ((reference_copies E.L).2 u) a) b
  have e : u.call E.L k w s t = fromExt E.L k w (refB E.L u a b) := by
    cases k
    · rw [bcall_eq (k := .log) ha hb]
      show logFrom E.L .ext w (u.fix a b (u.ev E.L x80 a b)) = logFrom E.L .ext w _
      rw [← hr, hfix]
    · obtain rfl : w = .w64 := by rcases hk with h | h; exacts [absurd h (by simp), h]
      rw [bcall_eq (k := .lin) (w := .w64) ha hb]
      show linFrom .ext .w64 (u.fix a b (u.ev E.L x80 a b)) = linFrom .ext .w64 _
      rw [← hr, hfix]
  exact ⟨e, binary_near hfl ha hb (e.trans hv) hv (by simp) (fun _ => rfl)⟩

/-- A `long double` that is not finite or a value of the type that `double` does not overflow to. -/
def Moderate (r : Fl) : Prop := r.isfinite = false ∨ ∃ q : ℚ, r.Is q ∧ x80.In q ∧ |q| ≤ (2 : ℚ) ^ (1023 : ℤ)

/-- C87. The functions whose `double` version converts the result of the `long double` version
(`csc`, `sec`, `cot`, those of multiples of `π`, `arccsc`, `arcsec`, `arccot`, those over `π`, `coth`,
`arcsch`, `arsech`, `arcoth`) pass their tests for all eight types, for every mathematical library. -/
theorem converted_pass {E : Env} (hE : Clear E) {u : UFun} (hu : CastFun u = true) (hn : u.fix = noFix)
    (hm : ∀ k w (t : T w) a, toExt E.L k w t = .ok a → Moderate (refU E.L u a)) :
    runBlock E (blockU E u) = .ok 0 := by
  refine block_pass1 fun k w t => ?_
  obtain ⟨a, ha⟩ := toExt_ok E.L k w t
  by_cases hk : k = .log ∨ w = .w64
  · exact (copies_pass u hk t ha (by rw [hn]; rfl) (hE _ _ _ _)).2
  · obtain ⟨k1, w1⟩ := not_or.mp hk
    obtain rfl : k = .lin := by cases k; exacts [absurd rfl k1, rfl]
    obtain ⟨x, ex, -⟩ := lin_arg w t
    have hxa := lin_ext (L := E.L) ex
    rw [ha] at hxa
    obtain rfl := Except.ok.inj hxa
    obtain ⟨p, v, e1, e2, e3, e4⟩ := cast_near' (w := w) (r := refU E.L u a) (by
      rcases hm _ _ _ _ ha with h | ⟨q, h1, h2, h3⟩
      · exact .inl h
      · exact .inr ⟨q, h1, h2, fun _ => h3⟩)
    refine unary_near (hE _ _ _ _) ha ?_ e2 e3 e4
    have hb : w.src.fmt = b64 := by cases w <;> first | rfl | exact absurd rfl w1
    have e5 : kTo E.L .lin w t = .ok a := ex
    rw [call_eq e5, hn]
    show linFrom w.src w (noFix a (u.ev E.L w.src.fmt a)) = _
    rw [hb, ev_b64, evd_cast _ hu, ← congrFun ((reference_copies E.L).1 u) a]
    rw [hb] at e1
    exact e1

/-! ## What the tests do not notice -/

theorem arg_ext {L : Libm} (hL : L.Conforming) {k : Kind} {w : W} {t : T w} {a : Fl} (ha : toExt L k w t = .ok a) :
    (t = nar w.n ∧ a = .nan) ∨ (t ≠ nar w.n ∧ ∃ v x, Arg x80 w a v x) := by
  cases hx : value k t with
  | none =>
    rw [value_none] at hx
    subst hx
    rw [toExt_nar hL.powers k w] at ha
    exact .inl ⟨rfl, (Except.ok.inj ha).symm⟩
  | some x =>
    obtain ⟨r, v, e, h⟩ := kTo_arg hL.powers hL.accurate hL.specials k w hx
    have e' : toExt L k w t = .ok r := by
      cases k
      · exact e
      · exact lin_ext e
    rw [ha] at e'
    obtain rfl := Except.ok.inj e'
    refine .inr ⟨fun h => ?_, v, x, { h with isIn := in_x80 (kF_std k w) h.isIn }⟩
    rw [value_none.mpr h] at hx
    cases hx

theorem moderate_within {F : Fmt} (hF : F = b64 ∨ F = x80) {r : Fl} {n : ℕ} (hn : n ≤ 1000) (h : r.Within F (2 ^ n)) :
    Moderate r := by
  obtain ⟨q, a, b, c⟩ := within_x80 hF h
  refine .inr ⟨q, a, b, c.trans ?_⟩
  have := pow_le_pow_right₀ (by norm_num : (1 : ℚ) ≤ 2) hn
  exact this.trans (by decide +kernel)

theorem arcoth_moderate {L : Libm} (hL : L.Conforming) {k : Kind} {w : W} {t : T w} {a : Fl}
    (ha : toExt L k w t = .ok a) : Moderate (refU L .arcoth a) := by
  have iv := hL.inverses
  show Moderate (L.atanh b64 (Fl.cast b64 (Fl.div x80 (.num 1) a)))
  rcases arg_ext hL ha with ⟨-, rfl⟩ | ⟨-, v, x, h⟩
  · left
    show (L.atanh b64 .nan).isfinite = false
    rw [hL.nans.atanh]; rfl
  · rcases arg_cases h with ⟨-, s, e⟩ | hv
    · left
      rw [e]
      show (L.atanh b64 (.inf s)).isfinite = false
      rw [iv.atanh_inf]; rfl
    · obtain ⟨i, q, a', b', -⟩ := ((div1 h hv).1.cast_within (F := b64) (Or.inl rfl) (k := 300) (by norm_num)
        (div1 h hv).2.2.1)
      rcases lt_trichotomy |b64.rq (x80.rq (1 / v))| 1 with h1 | h1 | h1
      · exact moderate_within (Or.inl rfl) (n := 100) (by norm_num) (iv.atanh b64 (Or.inl rfl) _ _ i
          (i.unique a' ▸ b') h1)
      · left; rw [iv.atanh_one b64 (Or.inl rfl) _ _ i h1]; rfl
      · left; rw [iv.atanh_out b64 (Or.inl rfl) _ _ i h1]; rfl

theorem sinPi_moderate {L : Libm} (hL : L.Conforming) {k : Kind} {w : W} {t : T w} {a : Fl}
    (ha : toExt L k w t = .ok a) : Moderate (refU L .sin_pi_times a) := by
  have z : Moderate (.zero false) := .inr ⟨0, Fl.Is.zero _, ⟨Fmt.Rep.zero _, by norm_num; positivity⟩, by norm_num⟩
  have o : Moderate (.num 1) := .inr ⟨1, Fl.Is.num (by norm_num), one_in (by simp), by decide +kernel⟩
  have m : Moderate (.num (-1)) := .inr ⟨-1, Fl.Is.num (by norm_num), In_neg (one_in (by simp)), by decide +kernel⟩
  show Moderate (sinPiRef L a)
  unfold sinPiRef
  extract_lets c
  split_ifs
  · exact z
  · exact o
  · exact z
  · exact m
  · rcases arg_ext hL ha with ⟨-, rfl⟩ | ⟨-, v, x, h⟩
    · left
      show (L.sin x80 .nan).isfinite = false
      rw [hL.nans.sin]; rfl
    · obtain ⟨p, hp, p3, p4⟩ := pie
      have hb : |p * v| ≤ 2 ^ 310 := by
        rw [abs_mul, abs_of_pos (by linarith)]
        calc p * |v| ≤ 4 * 2 ^ (300 : ℤ) := by
              have := h.le; gcongr
          _ ≤ 2 ^ 310 := by decide +kernel
      obtain ⟨b1, b2⟩ := rq_pow (F := x80) (Or.inr rfl) (by norm_num) hb
      have i : (Fl.mul x80 PI a).Is (x80.rq (p * v)) := by
        rw [hp]; exact (Fl.Is.num (by linarith : p ≠ 0)).mul h.is b2.2
      exact moderate_within (Or.inr rfl) (n := 0) (by norm_num)
        (by simpa using hL.circular.sin x80 (Or.inr rfl) _ _ i b2)

/-- C87. The test of `arcoth` passes, although `arcoth` of the 64-bit number next to 1 is NaR. -/
theorem arcoth_unnoticed {E : Env} (hL : E.L.Conforming) (hE : Clear E) :
    runBlock E (blockU E .arcoth) = .ok 0 ∧ value .lin (0x4000000000000001#64) = some (1 + 1 / 2 ^ 59) ∧
      UFun.arcoth.call E.L .lin .w64 (0x4000000000000001#64) = .ok (nar 64) :=
  ⟨converted_pass hE rfl rfl fun _ _ _ _ ha => arcoth_moderate hL ha, arcoth_refuted hL.inverses⟩

/-- C87. The test of `sin_pi_times` passes, although `sin_pi_times` of -1 is not 0. -/
theorem sin_pi_times_unnoticed {E : Env} (hL : E.L.Conforming) (hN : E.L.NearPi) (hE : Clear E) :
    runBlock E (blockU E .sin_pi_times) = .ok 0 ∧
      ∀ w (t : T w), linVal t = some (-1) → UFun.sin_pi_times.call E.L .lin w t ≠ .ok 0#w.n :=
  ⟨converted_pass hE rfl rfl fun _ _ _ _ ha => sinPi_moderate hL ha,
    fun w t h => ((pi_times_refuted hN w t).1 h).1⟩

/-- A mathematical library whose sine is 0 for all finite numbers. -/
def zeroSine (L : Libm) : Libm := { L with sin := fun _ x => if x.isfinite then .zero false else .nan }

/-- C87. The test of `sin` passes with a mathematical library whose sine is always 0. -/
theorem wrong_sine_passes {E : Env} {L : Libm} (hL : L.Conforming) (hl : E.L = zeroSine L) (hE : Clear E) :
    runBlock E (blockU E .sin) = .ok 0 ∧
      ∀ k w (t : T w), t ≠ nar w.n → UFun.sin.call E.L k w t = .ok 0#w.n := by
  have key : ∀ k w (t : T w), ∃ a, toExt E.L k w t = .ok a ∧ kTo E.L k w t = .ok a ∧
      (t = nar w.n ∧ a = .nan ∨ t ≠ nar w.n ∧ a.isfinite = true) := by
    intro k w t
    obtain ⟨a, ha⟩ := toExt_ok E.L k w t
    have h1 : toExt E.L k w t = toExt L k w t := by rw [hl]; rfl
    refine ⟨a, ha, ?_, ?_⟩
    · cases k
      · exact ha
      · obtain ⟨x, ex, -⟩ := lin_arg w t
        have hxa := lin_ext (L := E.L) ex
        rw [ha] at hxa
        obtain rfl := Except.ok.inj hxa
        exact ex
    · rcases arg_ext hL (h1.symm.trans ha) with h | ⟨h, v, x, i⟩
      · exact .inl h
      · exact .inr ⟨h, i.is.isfinite⟩
  have hs : ∀ F x, E.L.sin F x = if x.isfinite then .zero false else .nan := by rw [hl]; exact fun _ _ => rfl
  have hc : ∀ k w (t : T w), t ≠ nar w.n → UFun.sin.call E.L k w t = .ok 0#w.n := by
    intro k w t ht
    obtain ⟨a, -, h2, ⟨h, -⟩ | ⟨-, h⟩⟩ := key k w t
    · exact absurd h ht
    rw [call_eq h2]
    show kFrom E.L k w (UFun.sin.ev E.L (kF k w) a) = _
    rw [ev_direct (f := E.L.sin) rfl rfl (kF_std k w), hs, if_pos h, kFrom_zero]
  refine ⟨block_pass1 fun k w t => ?_, hc⟩
  obtain ⟨a, ha, h2, h⟩ := key k w t
  have e : ∃ v, fromExt E.L k w (refU E.L .sin a) = .ok v ∧ UFun.sin.call E.L k w t = .ok v := by
    rcases h with ⟨rfl, rfl⟩ | ⟨h, h'⟩
    · refine ⟨nar w.n, ?_, ?_⟩
      · show fromExt E.L k w (E.L.sin x80 .nan) = _
        rw [hs]
        exact fromExt_nonfinite _ _ _ rfl
      · rw [call_eq h2]
        show kFrom E.L k w (UFun.sin.ev E.L (kF k w) .nan) = _
        rw [ev_direct (f := E.L.sin) rfl rfl (kF_std k w), hs]
        exact kFrom_nonfinite _ _ _ rfl
    · refine ⟨0#w.n, ?_, hc k w t h⟩
      show fromExt E.L k w (E.L.sin x80 a) = _
      rw [hs, if_pos h', fromExt_zero]
  obtain ⟨v, e1, e2⟩ := e
  exact unary_near (hE _ _ _ _) ha e2 e1 (by simp) (fun _ => rfl)

/-! ## Examples -/

example : runBlock (plain ideal) (blockU (plain ideal) .arcoth) = .ok 0 :=
  (arcoth_unnoticed (E := plain ideal) ideal_conforming fun _ _ _ _ => rfl).1

example : runBlock (plain (zeroSine ideal)) (blockU (plain (zeroSine ideal)) .sin) = .ok 0 ∧
    UFun.sin.call (zeroSine ideal) .log .w16 0x4000#16 = .ok 0#16 :=
  have h := wrong_sine_passes (E := plain (zeroSine ideal)) ideal_conforming rfl fun _ _ _ _ => rfl
  ⟨h.1, h.2 .log .w16 _ (by decide)⟩

end Takum.Test
