import Verif.Lemmas.CalcNumber
import Verif.Props.ConvAccuracy

/-!
# C74, C76: numbers that are typed, and what is shown
-/

namespace Takum.Calc
open Spec Session

/-! ## Specification -/

/-- The number has the type, holds the takum, holds its conversions to all other types, and carries the marker. -/
structure Holds (L : Libm) (n : Number) (k : Kind) (w : W) (t : T w) (int : ℤ) : Prop where
  kind : n.kind = k
  width : n.width = w
  own : n.val k w = t
  other : ∀ k' w', ¬ (k' = k ∧ w' = w) → convert L k w t k' w' = .ok (n.val k' w')
  int : n.int = int

/-- The relative error that precedes the rounding to a takum: none for linear takums, that of the logarithm for
logarithmic takums. -/
noncomputable def typedTol : Kind → W → ℝ
  | .log, w => fromTol .ext w
  | .lin, _ => 0

/-- The takum is one of the two takums that enclose a number within the tolerance of `z`. -/
def Near (k : Kind) {w : W} (z : ℝ) (t : T w) : Prop := ∃ y : ℝ, |y - z| ≤ typedTol k w * |z| ∧ Faithful k y t

/-! ## Proof -/

theorem NRep.holds {L : Libm} {n : Number} {k : Kind} {w : W} {t : T w} {i : Option ℤ} (h : NRep L n ⟨k, w, t, i⟩) :
    Holds L n k w t (i.getD INT64_MAX) := by
  refine ⟨h.kind, h.width, h.own, fun k' w' hne => ?_, h.int⟩
  rw [← h.val k' w', Val.as, dif_neg hne]

theorem near_of {L : Libm} (hL : L.Conforming) (k : Kind) (w : W) {f : Fl} {z : ℚ} (hf : f.Is z) (hz : x80.In z) :
    ∃ t, fromLongDouble L k w f = .ok t ∧ Near k (z : ℝ) t := by
  cases k
  · obtain ⟨t, y, e, h1, h2⟩ := float_to_log_accurate hL .ext w f z hf hz
    exact ⟨t, e, y, h1, h2⟩
  · obtain ⟨t, e, h⟩ := linFrom_acc .ext w hf hz
    exact ⟨t, e, z, by simp [typedTol], h⟩

theorem nan_of (L : Libm) (k : Kind) (w : W) {f : Fl} (hf : f.isfinite = false) : fromLongDouble L k w f = .ok (nar w.n) := by
  cases k
  · exact logFrom_nonfinite L .ext w hf
  · cases f with
    | nan => exact linFrom_nan .ext w
    | inf s => exact linFrom_inf .ext w s
    | zero s => cases hf
    | num q => cases hf

theorem int_in {v : ℤ} (h1 : -2 ^ 63 ≤ v) (h2 : v < 2 ^ 63) : x80.In (v : ℚ) := by
  refine ⟨Fmt.Rep.int (by decide) ?_, ?_⟩
  · show |v| < 2 ^ 64
    rw [abs_lt]; omega
  · have h3 : |v| < 2 ^ 64 := by rw [abs_lt]; omega
    have h4 : |(v : ℚ)| < 2 ^ 64 := by exact_mod_cast h3
    refine h4.trans_le ?_
    rw [← zpow_natCast]
    exact zpow_le_zpow_right₀ (by norm_num) (by decide)

theorem literal_int {lc : Libc} {tok : List Char} {v : ℤ} (h : IntLit tok v) :
    literal lc tok = if 2 ^ 63 - 1 ≤ v then some (.nan, none) else some (Fl.ofInt x80 (max (-2 ^ 63) v), some (max (-2 ^ 63) v)) := by
  have hex : ∃ v, IntLit tok v := ⟨v, h⟩
  unfold literal
  rw [dif_pos hex]
  have e := IntLit.unique hex.choose_spec h
  generalize hex.choose = u at e
  unfold clamp at e
  by_cases hv : (2 : ℤ) ^ 63 - 1 ≤ v
  · rw [if_pos hv, if_pos (by omega)]
  · have : max (-2 ^ 63) u = max (-2 ^ 63) v := by omega
    rw [if_neg hv, if_neg (by omega), this]

theorem IntLit.ne {tok : List Char} {v : ℤ} (h : IntLit tok v) : tok ≠ [] := by
  rintro rfl
  obtain ⟨ws, sg, body, n, e, -, hn, -⟩ := h
  have hb : body = [] := by
    have := congrArg List.length e
    simp only [List.length_nil, List.length_append] at this
    exact List.length_eq_zero_iff.mp (by omega)
  subst hb
  rcases hn with ⟨c, ds, e, -⟩ | ⟨ds, e, -⟩ | ⟨x, ds, e, -⟩ <;> cases e

/-! ## C74 -/

/-- C74, what holds: an integer from `-2^63` to `2^63 - 2` that is typed in decimal, octal or hexadecimal is held as a takum
next to it, and marked with the integer; an integer from `2^63 - 1` on is held as NaR and not marked. -/
theorem typed_integer_partial {L : Libm} (hL : L.Conforming) {lc : Libc} (hlc : lc.Sound) {tok : List Char} {v : ℤ}
    (h : IntLit tok v) (hv : -2 ^ 63 ≤ v) (k : Kind) (w : W) :
    ∃ n t int, numberFromString L lc tok k w = .ok (some n) ∧ Holds L n k w t int ∧
      (v < 2 ^ 63 - 1 → Near k (v : ℝ) t ∧ int = v) ∧ (2 ^ 63 - 1 ≤ v → t = nar w.n ∧ int = INT64_MAX) := by
  have e := literal_int (lc := lc) h
  obtain ⟨-, h2⟩ := numberFromString_rep L hlc h.ne k w
  by_cases hc : (2 : ℤ) ^ 63 - 1 ≤ v
  · rw [if_pos hc] at e
    obtain ⟨t, n, e1, e2, e3⟩ := h2 _ _ e
    rw [nan_of L k w rfl] at e1
    cases e1
    exact ⟨n, _, _, e2, e3.holds, fun h => absurd hc (by omega), fun _ => ⟨rfl, rfl⟩⟩
  · rw [if_neg hc, max_eq_right hv] at e
    have hin := int_in hv (by omega)
    obtain ⟨t', e', hn⟩ := near_of hL k w (Fl.Is.ofInt_in hin) hin
    obtain ⟨t, n, e1, e2, e3⟩ := h2 _ _ e
    rw [e'] at e1
    cases e1
    exact ⟨n, _, _, e2, e3.holds, fun _ => ⟨by exact_mod_cast hn, rfl⟩, fun h => absurd h hc⟩

/-- C74: a token that is not an integer and that `strtold` accepts is held as a takum next to the number that `strtold`
returns, NaR if that is infinite or not a number; it is marked as an integer only if it is -1, 0 or 1. -/
theorem typed_real {L : Libm} (hL : L.Conforming) {lc : Libc} (hlc : lc.Sound) {tok : List Char} (hne : tok ≠ [])
    (h : ¬ ∃ v, IntLit tok v) (hr : (lc.strtold tok).2 = []) (k : Kind) (w : W) :
    ∃ n t int, numberFromString L lc tok k w = .ok (some n) ∧ Holds L n k w t int ∧
      ((lc.strtold tok).1.isfinite = false → t = nar w.n ∧ int = INT64_MAX) ∧
      ∀ z, (lc.strtold tok).1.Is z → Near k (z : ℝ) t ∧
        (int ≠ INT64_MAX ↔ z = -1 ∨ z = 0 ∨ z = 1) ∧ (int ≠ INT64_MAX → (int : ℚ) = z) := by
  have e : literal lc tok = some ((lc.strtold tok).1, match (lc.strtold tok).1 with
      | .zero _ => some 0
      | .num q => if q = 1 then some 1 else if q = -1 then some (-1) else none
      | _ => none) := by
    unfold literal; rw [dif_neg h, if_pos hr]; rfl
  obtain ⟨-, h2⟩ := numberFromString_rep L hlc hne k w
  have hin := hlc tok
  generalize (lc.strtold tok).1 = f at e hin ⊢
  obtain ⟨t, n, e1, e2, e3⟩ := h2 _ _ e
  refine ⟨n, t, _, e2, e3.holds, fun hf => ?_, fun z hz => ?_⟩
  · rw [nan_of L k w hf] at e1
    cases e1
    cases f with
    | nan => exact ⟨rfl, rfl⟩
    | inf s => exact ⟨rfl, rfl⟩
    | zero s => cases hf
    | num q => cases hf
  · have hz80 : x80.In z := by
      rcases hz.cases with ⟨_, rfl⟩ | ⟨rfl, _⟩
      · exact hin.2
      · exact ⟨Fmt.Rep.zero _, by rw [abs_zero]; exact zpow_pos (by norm_num) _⟩
    obtain ⟨t', e', hn⟩ := near_of hL k w hz hz80
    rw [e'] at e1
    cases e1
    refine ⟨hn, ?_⟩
    rcases hz.cases with ⟨h0, rfl⟩ | ⟨rfl, s, rfl⟩
    · by_cases h1 : z = 1
      · subst h1; simp [INT64_MAX]
      · by_cases h2 : z = -1
        · subst h2; norm_num [INT64_MAX]
        · simp [h0, h1, h2]
    · simp [INT64_MAX]

/-- C74: every other token is refused. -/
theorem typed_invalid (L : Libm) {lc : Libc} (hlc : lc.Sound) {tok : List Char} (hne : tok ≠ [])
    (h : ¬ ∃ v, IntLit tok v) (hr : (lc.strtold tok).2 ≠ []) (k : Kind) (w : W) : numberFromString L lc tok k w = .ok none := by
  refine (numberFromString_rep L hlc hne k w).1 ?_
  unfold literal; rw [dif_neg h, if_neg hr]

theorem lit_low : IntLit "-9223372036854775809".toList (-2 ^ 63 - 1) := by
  refine ⟨[], ['-'], "9223372036854775809".toList, 2 ^ 63 + 1, by decide, by simp, Or.inl ⟨_, _, rfl, by decide, ?_⟩, Or.inr ⟨rfl, by norm_num⟩⟩
  refine ⟨[9, 2, 2, 3, 3, 7, 2, 0, 3, 6, 8, 5, 4, 7, 7, 5, 8, 0, 9], ?_, by decide⟩
  repeat (first | exact .nil | refine .cons (by decide) ?_)

theorem lit_high : IntLit "9223372036854775807".toList (2 ^ 63 - 1) := by
  refine ⟨[], [], "9223372036854775807".toList, 2 ^ 63 - 1, by decide, by simp, Or.inl ⟨_, _, rfl, by decide, ?_⟩, Or.inl ⟨Or.inl rfl, by norm_num⟩⟩
  refine ⟨[9, 2, 2, 3, 3, 7, 2, 0, 3, 6, 8, 5, 4, 7, 7, 5, 8, 0, 7], ?_, by decide⟩
  repeat (first | exact .nil | refine .cons (by decide) ?_)

theorem lit_300 : IntLit "300".toList 300 := by
  refine ⟨[], [], "300".toList, 300, by decide, by simp, Or.inl ⟨_, _, rfl, by decide, ?_⟩, Or.inl ⟨Or.inl rfl, by norm_num⟩⟩
  refine ⟨[3, 0, 0], ?_, by decide⟩
  repeat (first | exact .nil | refine .cons (by decide) ?_)

/-- The hypothesis of `typed_integer_partial` can be met: a hexadecimal integer. -/
example : IntLit "-0x1F".toList (-31) := by
  refine ⟨[], ['-'], "0x1F".toList, 31, by decide, by simp, Or.inr (Or.inr ⟨'x', ['1', 'F'], rfl, by simp, by simp, [1, 15], ?_, by decide⟩),
    Or.inr ⟨rfl, by norm_num⟩⟩
  repeat (first | exact .nil | refine .cons (by decide) ?_)

/-- The hypotheses of `typed_real` and `typed_invalid` can be met. -/
example : ¬ ∃ v, IntLit "1.5".toList v := by
  rintro ⟨v, h⟩
  have h1 : (strtoll "1.5".toList).2 = [] := congrArg Prod.snd (strtoll_lit h)
  exact absurd h1 (by decide)

/-- C74 is not true of all integers: `-2^63 - 1` does not fit into `int64_t`, but is held as `-2^63`, not as NaR; `2^63 - 1`
fits, but is held as NaR. -/
theorem typed_integer_refuted {L : Libm} (hL : L.Conforming) {lc : Libc} (hlc : lc.Sound) (k : Kind) (w : W) :
    IntLit "-9223372036854775809".toList (-2 ^ 63 - 1) ∧ IntLit "9223372036854775807".toList (2 ^ 63 - 1) ∧
    (∃ n t, numberFromString L lc "-9223372036854775809".toList k w = .ok (some n) ∧ Holds L n k w t (-2 ^ 63) ∧ t ≠ nar w.n) ∧
    ∃ n, numberFromString L lc "9223372036854775807".toList k w = .ok (some n) ∧ Holds L n k w (nar w.n) INT64_MAX := by
  refine ⟨lit_low, lit_high, ?_, ?_⟩
  · have e := literal_int (lc := lc) lit_low
    rw [if_neg (by norm_num), max_eq_left (by norm_num)] at e
    obtain ⟨-, h2⟩ := numberFromString_rep L hlc lit_low.ne k w
    obtain ⟨t, n, e1, e2, e3⟩ := h2 _ _ e
    have hin := int_in (v := -2 ^ 63) le_rfl (by norm_num)
    obtain ⟨t', e', hn⟩ := near_of hL k w (Fl.Is.ofInt_in hin) hin
    rw [e'] at e1
    cases e1
    obtain ⟨y, -, hf⟩ := hn
    exact ⟨n, t, e2, e3.holds, hf.1⟩
  · obtain ⟨n, t, int, e, h, -, h2⟩ := typed_integer_partial hL hlc lit_high (by norm_num) k w
    obtain ⟨rfl, rfl⟩ := h2 le_rfl
    exact ⟨n, e, h⟩

/-! ## C76 -/

/-- What is shown is the number `x`, `none` for NaR: an integer for an integer, else a `long double` within a relative
error of `2^-56`, the number itself for linear takums. -/
def Shown.Is (k : Kind) : Shown → Option ℝ → Prop
  | .nar, x => x = none
  | .int i, x => x = some (i : ℝ)
  | .float f, x => ∃ (v : ℚ) (y : ℝ), f.Is v ∧ x = some y ∧ (∀ i : ℤ, y ≠ i) ∧ |(v : ℝ) - y| ≤ 1 / 2 ^ 56 * |y| ∧ (k = .lin → (v : ℝ) = y)

theorem shown_val {L : Libm} (hL : L.Conforming) {x : Val} (hi : x.int = (value x.kind x.t).bind intOf) :
    ∃ sh, x.shown L = .ok sh ∧ sh.Is x.kind (value x.kind x.t) := by
  obtain ⟨k, w, t, i⟩ := x
  simp only at hi ⊢
  unfold Val.shown
  simp only
  cases hv : value k t with
  | none =>
    rw [hv] at hi
    subst hi
    simp only [Option.bind_none]
    have ht : t = nar w.n := value_none.mp hv
    subst ht
    have : toLongDouble L k w (nar w.n) = .ok .nan := by
      cases k
      · exact logTo_nar hL.nans.pow_right .ext w
      · exact linToExtended_nar w
    rw [this]
    exact ⟨_, rfl, rfl⟩
  | some y =>
    rw [hv, Option.bind_some] at hi
    cases i with
    | some i => exact ⟨_, rfl, congrArg some (intOf_some hi.symm)⟩
    | none =>
      have hy : ∀ i : ℤ, y ≠ i := by
        rintro i rfl; rw [intOf_int] at hi; cases hi
      have : ∃ f v, toLongDouble L k w t = .ok f ∧ Fl.Is f v ∧ |(v : ℝ) - y| ≤ 1 / 2 ^ 56 * |y| ∧ (k = .lin → (v : ℝ) = y) := by
        cases k
        · obtain ⟨f, v, e, h1, -, h2⟩ := log_to_float_accurate hL .ext (by simp) w t y hv
          exact ⟨f, v, e, h1, h2, by simp⟩
        · have h := (lin_to_exact w t).1.1
          cases hq : linVal t with
          | none => change (linVal t).map _ = _ at hv; rw [hq] at hv; cases hv
          | some q =>
            have hqy : (q : ℝ) = y := by change (linVal t).map _ = _ at hv; rw [hq] at hv; simpa using hv
            rw [hq] at h
            refine ⟨_, q, h, ?_, ?_, fun _ => hqy⟩
            · unfold exactFl
              have h0 : q ≠ 0 := by rintro rfl; exact hy 0 (by rw [← hqy]; simp)
              simp only [h0, if_false]
              exact Fl.Is.num h0
            · rw [hqy, sub_self, abs_zero]; positivity
      obtain ⟨f, v, e, h1, h2, h3⟩ := this
      simp only [e, ok_bind]
      cases f with
      | nan => exact absurd h1.isfinite Bool.false_ne_true
      | inf s => exact absurd h1.isfinite Bool.false_ne_true
      | zero s => exact ⟨_, rfl, v, y, h1, rfl, hy, h2, h3⟩
      | num q => exact ⟨_, rfl, v, y, h1, rfl, hy, h2, h3⟩

/-- C76, what holds: for the result of an operation the calculator shows the number that the takum stands for. -/
theorem shown_result_partial {L : Libm} (hL : L.Conforming) (k : Kind) (w : W) (t : T w) (n : Number)
    (h : numberFrom L k w t = .ok n) : ∃ sh, n.print L = .ok sh ∧ sh.Is k (value k t) := by
  have hr := numberFrom_rep L k w t
  rw [h] at hr
  cases he : result k w t with
  | error u => rw [he] at hr; exact hr.elim
  | ok x =>
    rw [he] at hr
    have hr : NRep L n x := hr
    rw [print_rep hr]
    have hx : x = ⟨k, w, t, (value k t).bind intOf⟩ := by
      unfold result at he
      cases k
      · exact (Except.ok.inj he).symm
      · cases hv : value .lin t with
        | none => rw [hv] at he; cases he
        | some y =>
          rw [hv] at he
          simp only at he
          split at he
          · exact (Except.ok.inj he).symm
          · cases he
    subst hx
    exact shown_val hL rfl

/-- C76 is not true of numbers that are typed: `300` is shown as `300` in `takum_linear8`, in which no takum is 300. -/
theorem shown_typed_refuted {L : Libm} (hL : L.Conforming) {lc : Libc} (hlc : lc.Sound) :
    ∃ n t, numberFromString L lc "300".toList .lin .w8 = .ok (some n) ∧ n.val .lin .w8 = t ∧ n.print L = .ok (.int 300) ∧
      ¬ (Shown.int 300).Is .lin (value .lin t) := by
  obtain ⟨n, t, int, e, h, h1, -⟩ := typed_integer_partial hL hlc lit_300 (by norm_num) .lin .w8
  obtain ⟨-, rfl⟩ := h1 (by norm_num)
  refine ⟨n, t, e, h.own, ?_, ?_⟩
  · unfold Number.print
    rw [h.int, if_pos (by decide)]
    rfl
  · intro hc
    have : ∀ t : BitVec 8, linVal t ≠ some 300 := by decide +kernel
    apply this t
    change (linVal t).map _ = _ at hc
    cases hq : linVal t with
    | none => rw [hq] at hc; cases hc
    | some q =>
      rw [hq] at hc
      have : (q : ℝ) = ((300 : ℤ) : ℝ) := by simpa using hc
      have : q = 300 := by exact_mod_cast this
      rw [this]

end Takum.Calc
