import Verif.Lemmas.TestBin

/-!
# C93: the tests of the elementary functions of two arguments pass
-/

namespace Takum.Test
open Takum Spec

/-- The exception flags of the cases of a test of a function of two arguments.  Overflow is raised exactly for
the infinite powers of a base that is not zero (`0^b` for negative `b` is a division by zero); a zero that is a
power of a nonzero base raises underflow or overflow, any other zero does not raise underflow. -/
def Signals2 (E : Env) (u : BFun) : Prop :=
  ∀ k w (t s : T w) raw, RefIs2 E.L k w t s (refB E.L u) raw →
    ((E.flags k w t.toInt s.toInt).2 = true → raw.isinf = true ∧ u = .power ∧ t ≠ 0#w.n) ∧
    (raw.isinf = true → u = .power → t ≠ 0#w.n → (E.flags k w t.toInt s.toInt).2 = true) ∧
    (raw.isfinite = true → raw.toQ = 0 →
      ((u = .power ∧ t ≠ 0#w.n) ∧ ((E.flags k w t.toInt s.toInt).1 = true ∨ (E.flags k w t.toInt s.toInt).2 = true)) ∨
      (¬(u = .power ∧ t ≠ 0#w.n) ∧ (E.flags k w t.toInt s.toInt).1 = false))

/-- C93. Every case of every test of a function of two arguments is passed. -/
theorem binary_case {E : Env} (hL : E.L.Conforming) (hA : E.L.Approximates) {u : BFun} (hE : Signals2 E u) (k : Kind) (w : W)
    (t s : T w) : PassedBinary E (refB E.L u) (u.call E.L) k w t s := by
  obtain ⟨a, ha⟩ := toExt_ok E.L k w t
  obtain ⟨b, hb⟩ := toExt_ok E.L k w s
  obtain ⟨s1, s2, s3⟩ := hE k w t s _ ⟨a, b, ha, hb, rfl⟩
  have hr : refB E.L u a b = u.ev E.L x80 a b := congrFun (congrFun ((reference_copies E.L).2 u) a) b
  have ka := toExt_kTo ha
  have kb := toExt_kTo hb
  have ca := arg_cases hL ka
  have cb := arg_cases hL kb
  have inf : ∀ {r : Fl} {v : ℚ}, r.Is v → r.isinf = false := fun h => h.isinf
  have ia : a.isinf = false := by rcases ca with ⟨-, rfl⟩ | ⟨v, x, h, -⟩; exacts [rfl, inf h.is]
  have ib : b.isinf = false := by rcases cb with ⟨-, rfl⟩ | ⟨v, x, h, -⟩; exacts [rfl, inf h.is]
  -- the base is zero as a float exactly if it is as a takum
  have za : Fl.eq a (.zero false) = true ↔ t = 0#w.n := by
    rcases ca with ⟨rfl, rfl⟩ | ⟨v, x, h, hz⟩
    · refine iff_of_false (by simp [Fl.eq]) fun h => (zero_ne_nar w) h.symm
    · rw [Fl.eq_iff h.is (Fl.Is.zero false), hz]
  have hraw : u ≠ .power → (u.ev E.L x80 a b).isinf = false ∧ u.fix a b (u.ev E.L x80 a b) = u.ev E.L x80 a b := by
    intro hu
    have fin : (u.ev E.L x80 a b).isinf = false := by
      by_cases hn : a = .nan ∨ b = .nan
      · rcases ev_nan2 hL u ia ib hn with h | ⟨h, -⟩
        · rw [h]; rfl
        · exact absurd h hu
      · rcases ca with ⟨-, e⟩ | ⟨v, x, h, -⟩
        · exact absurd (.inl e) hn
        rcases cb with ⟨-, e⟩ | ⟨v', x', h', -⟩
        · exact absurd (.inr e) hn
        have X : x80 = b64 ∨ x80 = x80 := Or.inr rfl
        have A : Arg x80 w a v x := { h.toArg with isIn := in_x80 (kF_std k w) h.isIn }
        have B : Arg x80 w b v' x' := { h'.toArg with isIn := in_x80 (kF_std k w) h'.isIn }
        have g := good2_fmt hL hA u X A B h.zpos h'.zpos
        cases u with
        | power => exact absurd rfl hu
        | hypotenuse =>
          have n := (hA.hypot x80 X a b v v' A.is A.isIn B.is B.isIn).near (hypot_bounds (A.mfl X) (B.mfl X))
          exact n.choose_spec.1.isinf
        | _ =>
          rcases g with ⟨g, -⟩ | ⟨-, z, g, -⟩
          · exact absurd g id
          · exact g.isinf
    refine ⟨fin, ?_⟩
    cases u with
    | power => exact absurd rfl hu
    | hypotenuse => show fixHypot a b _ = _; unfold fixHypot; rw [fin]; rfl
    | _ => rfl
  -- the expected value
  obtain ⟨v, ev, hv⟩ := expected_gen hL (k := k) (w := w) (y := u.fix a b (u.ev E.L x80 a b)) (raw := refB E.L u a b)
    (G := decide (u = .power ∧ t ≠ 0#w.n)) (N := decide (u = .power ∧ t ≠ 0#w.n)) (fl := E.flags k w t.toInt s.toInt)
    (fun h => .inl ⟨(s1 h).1, decide_eq_true (s1 h).2⟩)
    (fun h g => s2 h (of_decide_eq_true g).1 (of_decide_eq_true g).2)
    (fun h h' => by
      rcases s3 h h' with ⟨g, h⟩ | ⟨g, h⟩
      · rw [if_pos (decide_eq_true g)]; exact h
      · rw [if_neg (by simpa using g)]; exact h)
    (fun g s e => by
      obtain ⟨rfl, g'⟩ := of_decide_eq_true g
      rw [hr] at e
      show fixPower a b _ = _
      unfold fixPower
      have : ¬ Fl.eq a (.zero false) = true := fun h => g' (za.mp h)
      rw [e, if_neg (by simp [Fl.eq]), if_pos (by rfl), if_neg this]; rfl)
    (fun g h h' => by
      obtain ⟨rfl, g'⟩ := of_decide_eq_true g
      rw [hr] at h h' ⊢
      show fixPower a b _ = _
      unfold fixPower
      have : ¬ Fl.eq a (.zero false) = true := fun h => g' (za.mp h)
      rw [if_pos ((Fl.eq_zero_iff _).mpr ⟨h, h'⟩), if_neg this])
    (fun h h' => by
      rw [hr] at h h' ⊢
      by_cases hu : u = .power
      · subst hu
        by_cases ht : t = 0#w.n
        · -- a power of zero
          have hz := za.mpr ht
          show fromExt E.L k w (fixPower a b (E.L.pow x80 a b)) = fromExt E.L k w (E.L.pow x80 a b)
          have a0 : a = .zero false := by
            rcases ca with ⟨-, rfl⟩ | ⟨v, x, h, e⟩
            · simp [Fl.eq] at hz
            · exact h.zpos (e.mpr ht)
          subst a0
          rcases cb with ⟨-, rfl⟩ | ⟨q, y, hb', -⟩
          · rw [hL.nans.pow_right _ _ (by simp)]; rfl
          rcases lt_trichotomy q 0 with hq | rfl | hq
          · rw [hb'.is.eq_num hq.ne]
            have := hL.specials.zero_neg x80 false q hq
            cases e : E.L.pow x80 (.zero false) (.num q) with
            | inf s => rw [fromExt_nonfinite _ _ _ (by simp [fixPower, Fl.eq, Fl.isinf, Fl.isfinite, Fl.toQ]), fromExt_nonfinite _ _ _ rfl]
            | _ => rw [e] at this; simp [Fl.isinf] at this
          · rw [hb'.zpos rfl, hL.specials.exp_zero, fixPower_is (Fl.Is.num one_ne_zero) one_ne_zero]
          · rw [hb'.is.eq_num hq.ne']
            obtain ⟨s', e⟩ := hL.powSigns.zero_pos x80 false q hq
            rw [e, fromExt_zero]
            show fromExt E.L k w (fixPower (.zero false) (.num q) (.zero s')) = _
            rw [show fixPower (.zero false) (.num q) (.zero s') = .zero false by simp [fixPower, Fl.eq, Fl.toQ], fromExt_zero]
        · have g : decide (BFun.power = .power ∧ t ≠ 0#w.n) = true := decide_eq_true ⟨rfl, ht⟩
          rw [g] at h h'
          generalize BFun.power.ev E.L x80 a b = raw at h h'
          congr 1
          cases raw with
          | nan => exact fix2_nan _ _ _
          | inf s => exact absurd ⟨rfl, rfl⟩ h
          | zero s => exact absurd ⟨rfl, rfl, rfl⟩ h'
          | num q => exact fix2_num _ _ _ fun e => h' ⟨rfl, e, rfl⟩
      · rw [(hraw hu).2])
  refine ⟨_, ⟨a, b, ha, hb, rfl⟩, ?_⟩
  by_cases hkw : k = .log ∨ w = .w64
  · have ec : u.call E.L k w t s = .ok v := by
      rw [bcall_eq ka kb]
      cases k
      · exact ev
      · obtain rfl : w = .w64 := by rcases hkw with h | h; exacts [absurd h (by simp), h]
        exact ev
    exact ⟨v, v.toInt, ec, hv, fun _ => ⟨fun h => h.2 rfl, fun h => h.2.1 rfl⟩, by simp⟩
  · obtain ⟨k1, w1⟩ := not_or.mp hkw
    obtain rfl : k = .lin := by cases k; exacts [absurd rfl k1, rfl]
    have hs : w.src = .f64 := by cases w <;> first | rfl | exact absurd rfl w1
    have hb : kF .lin w = b64 := by cases w <;> first | rfl | exact absurd rfl w1
    have hp : Pair2 E.L u w a b := by
      by_cases hn : a = .nan ∨ b = .nan
      · exact pair2_nan hL u w1 ia ib hn
      · rcases ca with ⟨-, e⟩ | ⟨v, x, h, -⟩
        · exact absurd (.inl e) hn
        rcases cb with ⟨-, e⟩ | ⟨v', x', h', -⟩
        · exact absurd (.inr e) hn
        have A1 := h.toArg
        have B1 := h'.toArg
        rw [hb] at A1 B1
        have A2 : Arg x80 w a v x := { h.toArg with isIn := in_x80 (kF_std .lin w) h.isIn }
        have B2 : Arg x80 w b v' x' := { h'.toArg with isIn := in_x80 (kF_std .lin w) h'.isIn }
        exact pair2_good w1 (good2_fmt hL hA u (Or.inl rfl) A1 B1 h.zpos h'.zpos)
          (good2_fmt hL hA u (Or.inr rfl) A2 B2 h.zpos h'.zpos)
    obtain ⟨p, q, e1, e2, e3⟩ := hp
    have : q = v := Except.ok.inj (e2.symm.trans ev)
    subst this
    refine ⟨p, q.toInt, ?_, hv, fun h => absurd h w1, e3⟩
    rw [bcall_eq ka kb, hb]
    show linFrom w.src w _ = _
    rw [hs]; exact e1

/-- C93. The tests of all elementary functions of two arguments pass. -/
theorem binary_passes {E : Env} (hL : E.L.Conforming) (hA : E.L.Approximates) {u : BFun} (hE : Signals2 E u) :
    runBlock E (blockB E u) = .ok 0 :=
  block_pass2 (binary_case hL hA hE)

/-! ## Examples -/

/-- An environment in which the flags are those of a conforming library. -/
def signalling2 (L : Libm) (u : BFun) : Env :=
  ⟨L, fun _ _ _ => 0, fun k w a b => match toExt L k w (BitVec.ofInt w.n a), toExt L k w (BitVec.ofInt w.n b) with
    | .ok f, .ok g => (Fl.eq (refB L u f g) (.zero false) && decide (u = .power ∧ a ≠ 0),
        (refB L u f g).isinf && decide (u = .power ∧ a ≠ 0))
    | _, _ => (false, false)⟩

theorem signalling2_signals (L : Libm) (u : BFun) : Signals2 (signalling2 L u) u := by
  rintro k w t s raw ⟨a, b, ha, hb, rfl⟩
  have hz : t.toInt ≠ 0 ↔ t ≠ 0#w.n := by
    rw [Ne, Ne, ← BitVec.toInt_inj (y := 0#w.n)]; simp
  have e : (signalling2 L u).flags k w t.toInt s.toInt =
      (Fl.eq (refB L u a b) (.zero false) && decide (u = .power ∧ t ≠ 0#w.n),
        (refB L u a b).isinf && decide (u = .power ∧ t ≠ 0#w.n)) := by
    have ha' : toExt L k w (BitVec.ofInt w.n t.toInt) = .ok a := by rw [BitVec.ofInt_toInt]; exact ha
    have hb' : toExt L k w (BitVec.ofInt w.n s.toInt) = .ok b := by rw [BitVec.ofInt_toInt]; exact hb
    show (match toExt L k w (BitVec.ofInt w.n t.toInt), toExt L k w (BitVec.ofInt w.n s.toInt) with
      | .ok f, .ok g => _ | _, _ => _) = _
    rw [ha', hb']
    simp only [hz]
  rw [e]
  refine ⟨fun h => ?_, fun h1 h2 h3 => ?_, fun h1 h2 => ?_⟩
  · simp only [Bool.and_eq_true, decide_eq_true_iff] at h
    exact h
  · change (refB L u a b).isinf = true at h1
    simp only [h1, Bool.true_and, decide_eq_true_iff]
    exact ⟨h2, h3⟩
  · change (refB L u a b).isfinite = true at h1
    change (refB L u a b).toQ = 0 at h2
    have := (Fl.eq_zero_iff _).mpr ⟨h1, h2⟩
    simp only [this, Bool.true_and]
    by_cases h : u = .power ∧ t ≠ 0#w.n
    · exact .inl ⟨h, .inl (decide_eq_true h)⟩
    · exact .inr ⟨h, decide_eq_false h⟩

example (u : BFun) : runBlock (signalling2 ideal u) (blockB (signalling2 ideal u) u) = .ok 0 :=
  binary_passes (E := signalling2 ideal u) ideal_conforming ideal_approximates (signalling2_signals _ _)

end Takum.Test
