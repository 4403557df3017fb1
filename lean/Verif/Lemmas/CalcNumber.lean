import Verif.Lemmas.Sim
import Verif.Lemmas.Literals
import Verif.CalcSpec
import Verif.Props.Calculator
import Verif.Props.Irrational
import Verif.Props.Defined
import Verif.Props.Operators

/-!
# Numbers of the calculator
-/

namespace Takum.Calc
open Spec Session

/-- The eight takums of a number are the conversions of one, and the marker is the integer. -/
structure NRep (L : Libm) (n : Number) (x : Val) : Prop where
  kind : n.kind = x.kind
  width : n.width = x.width
  val : ∀ k w, x.as L k w = .ok (n.val k w)
  int : n.int = x.int.getD INT64_MAX
  ne : x.int ≠ some INT64_MAX

theorem convert_ok (L : Libm) (k : Kind) (w : W) (t : T w) (k' : Kind) (w' : W) (h : ¬ (k' = k ∧ w' = w)) :
    Defined (convert L k w t k' w') := by
  obtain ⟨-, -, h3, h4, h5, -⟩ := no_undefined_behaviour L
  have same : ¬ (w' = w) → Defined (if w.n < w'.n then expand w w' t else reduce w w' t) := by
    intro hw
    by_cases hl : w.n < w'.n
    · rw [if_pos hl]; exact h3 w w' hl t
    · rw [if_neg hl]
      exact h4 w w' (by revert hw hl; cases w <;> cases w' <;> decide) t
  cases k <;> cases k'
  · exact same fun hw => h ⟨rfl, hw⟩
  · exact (h5 w w' t).1
  · exact (h5 w w' t).2
  · exact same fun hw => h ⟨rfl, hw⟩

theorem slot_ok (L : Libm) (k : Kind) (w : W) (t : T w) (k' : Kind) (w' : W) : ∃ v, slot L k w t k' w' = .ok v := by
  unfold slot
  split
  · exact ⟨_, rfl⟩
  · exact convert_ok L k w t k' w' ‹_›

theorem slot_as (L : Libm) (x : Val) (k : Kind) (w : W) : slot L x.kind x.width x.t k w = x.as L k w := rfl

theorem fill_rep (L : Libm) (x : Val) (i : ℤ) (hi : i = x.int.getD INT64_MAX) (hn : x.int ≠ some INT64_MAX) :
    ∃ n, fill L x.kind x.width x.t i = .ok n ∧ NRep L n x := by
  obtain ⟨a1, e1⟩ := slot_ok L x.kind x.width x.t .log .w8
  obtain ⟨a2, e2⟩ := slot_ok L x.kind x.width x.t .log .w16
  obtain ⟨a3, e3⟩ := slot_ok L x.kind x.width x.t .log .w32
  obtain ⟨a4, e4⟩ := slot_ok L x.kind x.width x.t .log .w64
  obtain ⟨a5, e5⟩ := slot_ok L x.kind x.width x.t .lin .w8
  obtain ⟨a6, e6⟩ := slot_ok L x.kind x.width x.t .lin .w16
  obtain ⟨a7, e7⟩ := slot_ok L x.kind x.width x.t .lin .w32
  obtain ⟨a8, e8⟩ := slot_ok L x.kind x.width x.t .lin .w64
  unfold fill
  rw [e1, e2, e3, e4, e5, e6, e7, e8]
  refine ⟨_, rfl, rfl, rfl, ?_, hi, hn⟩
  intro k w
  cases k <;> cases w <;> assumption

theorem NRep.own {L : Libm} {n : Number} {x : Val} (h : NRep L n x) : n.val x.kind x.width = x.t := by
  have := h.val x.kind x.width
  unfold Val.as at this
  rw [dif_pos ⟨rfl, rfl⟩] at this
  exact (Except.ok.inj this).symm

/-- The conversions of 0. -/
theorem NRep.zero {L : Libm} (hL : L.Powers) : NRep L Number.zero ⟨.log, .w8, 0#8, some 0⟩ := by
  refine ⟨rfl, rfl, ?_, rfl, by decide⟩
  intro k w
  cases k
  · cases w
    · rfl
    · exact (by decide : expand .w8 .w16 0#8 = .ok 0#16)
    · exact (by decide : expand .w8 .w32 0#8 = .ok 0#32)
    · exact (by decide : expand .w8 .w64 0#8 = .ok 0#64)
  · show linFromLog L .w8 w 0#8 = .ok 0#w.n
    unfold linFromLog
    by_cases h : W.w8 = .w64 ∨ w = .w64
    · rw [if_pos h, show toExtended L .w8 0#8 = .ok (.zero false) from logTo_zero hL .ext .w8]
      exact linFrom_zero .ext w false
    · rw [if_neg h, show toFloat64 L .w8 0#8 = .ok (.zero false) from logTo_zero hL .f64 .w8]
      exact linFrom_zero .f64 w false

theorem intOf_int (i : ℤ) : intOf (i : ℝ) = some i := by unfold intOf; rw [Int.floor_intCast, if_pos rfl]

theorem intOf_none {x : ℝ} (h : ∀ i : ℤ, x ≠ i) : intOf x = none := if_neg (h _)

theorem intOf_some {x : ℝ} {i : ℤ} (h : intOf x = some i) : x = i := by
  unfold intOf at h
  split at h
  · rename_i h1; rw [Option.some.injEq] at h; rw [h1, h]
  · cases h

/-- The number of a result. -/
theorem numberFrom_rep (L : Libm) (k : Kind) (w : W) (t : T w) : Sim (NRep L) (numberFrom L k w t) (result k w t) := by
  unfold numberFrom result
  cases k
  · simp only
    obtain ⟨h1, h2⟩ := integer_marker_log w t
    have hm : integerValueLog w t = ((value .log t).bind intOf).getD INT64_MAX ∧ (value .log t).bind intOf ≠ some INT64_MAX := by
      show _ = ((logVal t).bind intOf).getD INT64_MAX ∧ (logVal t).bind intOf ≠ some INT64_MAX
      by_cases h : ∃ i : ℤ, logVal t = some (i : ℝ)
      · obtain ⟨i, hi⟩ := h
        rw [hi, Option.bind_some, intOf_int]
        refine ⟨h1 i hi, ?_⟩
        rintro ⟨⟩
        have hq : logVal t = some (((INT64_MAX : ℚ)) : ℝ) := by rw [hi]; simp
        rcases log_rational hq with h | h | h <;> revert h <;> unfold INT64_MAX <;> norm_num
      · push Not at h
        have : (logVal t).bind intOf = none := by
          cases hv : logVal t with
          | none => rfl
          | some x =>
            rw [Option.bind_some]
            exact intOf_none fun i hx => h i (by rw [hv, hx])
        rw [this]
        exact ⟨h2 h, by simp⟩
    obtain ⟨n, e, hr⟩ := fill_rep L ⟨.log, w, t, (value .log t).bind intOf⟩ _ hm.1 hm.2
    show Sim _ (fill L .log w t (integerValueLog w t)) _
    simp only at e
    rw [e]
    exact hr
  · simp only
    by_cases hn : t = nar w.n
    · rw [(integer_marker_refuted w t).mpr (Or.inl hn), value_none.mpr hn]
      rfl
    · have hv : value .lin t = some (qv t : ℝ) := by
        show (linVal t).map _ = _
        rw [linVal_qv hn]; rfl
      rw [hv]
      simp only
      by_cases hq : -2 ^ 63 - 1 < qv t ∧ qv t < 2 ^ 63
      · have hq' : -2 ^ 63 - 1 < (qv t : ℝ) ∧ (qv t : ℝ) < 2 ^ 63 := by
          constructor
          · exact_mod_cast (Rat.cast_lt (K := ℝ)).mpr hq.1
          · exact_mod_cast (Rat.cast_lt (K := ℝ)).mpr hq.2
        rw [if_pos hq']
        obtain ⟨i, e, h1, h2⟩ := integer_marker_partial w t (qv t) (linVal_qv hn) hq
        rw [e]
        have hm : i = (intOf (qv t : ℝ)).getD INT64_MAX ∧ intOf (qv t : ℝ) ≠ some INT64_MAX := by
          by_cases h : ∃ j : ℤ, qv t = j
          · obtain ⟨j, hj⟩ := h
            have : intOf (qv t : ℝ) = some j := by rw [hj, Rat.cast_intCast, intOf_int]
            rw [this]
            obtain ⟨h3, h4⟩ := h1 j hj
            subst h3
            exact ⟨rfl, by simpa using h4⟩
          · push Not at h
            have : intOf (qv t : ℝ) = none := intOf_none fun j hj => h j (by exact_mod_cast hj)
            rw [this]
            exact ⟨h2 h, by simp⟩
        obtain ⟨n, e, hr⟩ := fill_rep L ⟨.lin, w, t, intOf (qv t : ℝ)⟩ _ hm.1 hm.2
        show Sim _ (fill L .lin w t i) _
        simp only at e
        rw [e]
        exact hr
      · have hq' : ¬ (-2 ^ 63 - 1 < (qv t : ℝ) ∧ (qv t : ℝ) < 2 ^ 63) := by
          rintro ⟨a, b⟩
          refine hq ⟨?_, ?_⟩
          · exact (Rat.cast_lt (K := ℝ)).mp (by push_cast; exact a)
          · exact (Rat.cast_lt (K := ℝ)).mp (by push_cast; exact b)
        rw [if_neg hq']
        have : integerValueLin w t = .error .conv := by
          refine (integer_marker_refuted w t).mpr (Or.inr ⟨_, linVal_qv hn, ?_⟩)
          by_contra hc
          push Not at hc
          exact hq hc
        rw [this]
        rfl

theorem IntLit.unique {tok : List Char} {v v' : ℤ} (h : IntLit tok v) (h' : IntLit tok v') : clamp v = clamp v' := by
  have := (strtoll_lit h).symm.trans (strtoll_lit h')
  exact congrArg Prod.fst this

/-- `strtold` returns a `long double`. -/
def Libc.Sound (lc : Libc) : Prop := ∀ s, (lc.strtold s).1.In x80

/-- The text of a number. -/
theorem scan_literal {lc : Libc} (hlc : lc.Sound) {tok : List Char} (hne : tok ≠ []) :
    scan lc tok = .ok ((literal lc tok).map fun p => (p.1, p.2.getD INT64_MAX)) ∧
      ∀ p, literal lc tok = some p → p.2 ≠ some INT64_MAX := by
  unfold scan literal
  by_cases h : ∃ v, IntLit tok v
  · rw [dif_pos h]
    have e := strtoll_lit h.choose_spec
    generalize h.choose = v at e
    generalize lc.strtold tok = q
    obtain ⟨f, fe⟩ := q
    rw [e]
    simp only [if_true]
    by_cases hv : (2 : ℤ) ^ 63 - 1 ≤ v
    · have hc : clamp v = 2 ^ 63 - 1 := by unfold clamp; omega
      rw [if_pos hv, hc, if_pos (Or.inl (by unfold INT64_MAX; omega))]
      exact ⟨rfl, by rintro p ⟨⟩; simp⟩
    · have hc : clamp v = max (-2 ^ 63) v := by unfold clamp; omega
      rw [if_neg hv, hc, if_neg (by unfold INT64_MAX; omega)]
      refine ⟨rfl, ?_⟩
      rintro p ⟨⟩
      simp only [ne_eq, Option.some.injEq]
      unfold INT64_MAX; omega
  · rw [dif_neg h]
    have e : (strtoll tok).2 ≠ [] := fun hc => h (strtoll_inv hc hne)
    have hin := hlc tok
    generalize strtoll tok = q at e
    obtain ⟨i, ie⟩ := q
    generalize lc.strtold tok = q at hin
    obtain ⟨f, fe⟩ := q
    simp only at e hin ⊢
    rw [if_neg e]
    by_cases hf : fe = []
    · rw [if_pos hf, if_pos hf]
      cases f with
      | nan => exact ⟨by simp [Fl.eq, INT64_MAX]; rfl, by rintro p ⟨⟩; simp⟩
      | inf b => exact ⟨by simp [Fl.eq, INT64_MAX]; rfl, by rintro p ⟨⟩; simp⟩
      | zero b =>
        refine ⟨?_, by rintro p ⟨⟩; simp [INT64_MAX]⟩
        rw [if_pos (Or.inr (Or.inl (by simp [Fl.eq, Fl.toQ])))]
        rfl
      | num q =>
        have hq : q ≠ 0 := hin.1
        by_cases h1 : q = 1
        · subst h1
          refine ⟨?_, by rintro p ⟨⟩; simp [INT64_MAX]⟩
          rw [if_pos (Or.inr (Or.inr (by decide)))]
          rfl
        · by_cases h2 : q = -1
          · subst h2
            refine ⟨?_, by rintro p ⟨⟩; norm_num [INT64_MAX]⟩
            rw [if_pos (Or.inl (by decide))]
            simp only [if_neg h1]
            rfl
          · refine ⟨?_, by rintro p ⟨⟩; simp [h1, h2]⟩
            rw [if_neg]
            · simp [h1, h2]; rfl
            · show ¬ (decide (q = -1) = true ∨ decide (q = 0) = true ∨ decide (q = 1) = true)
              rw [decide_eq_true_iff, decide_eq_true_iff, decide_eq_true_iff]
              tauto
    · rw [if_neg hf, if_neg hf]
      exact ⟨rfl, by rintro p ⟨⟩⟩

theorem fromLongDouble_ok (L : Libm) (k : Kind) (w : W) (f : Fl) : ∃ t, fromLongDouble L k w f = .ok t := by
  obtain ⟨h, -⟩ := no_undefined_behaviour L
  cases k
  · exact (h .ext w f).1
  · exact (h .ext w f).2

/-- A number that is typed. -/
theorem numberFromString_rep (L : Libm) {lc : Libc} (hlc : lc.Sound) {tok : List Char} (hne : tok ≠ []) (k : Kind) (w : W) :
    (literal lc tok = none → numberFromString L lc tok k w = .ok none) ∧
    ∀ f i, literal lc tok = some (f, i) → ∃ t n, fromLongDouble L k w f = .ok t ∧ numberFromString L lc tok k w = .ok (some n) ∧
      NRep L n ⟨k, w, t, i⟩ := by
  obtain ⟨e, hi⟩ := scan_literal hlc hne
  unfold numberFromString
  rw [e]
  constructor
  · intro h; rw [h]; rfl
  · intro f i h
    obtain ⟨t, ht⟩ := fromLongDouble_ok L k w f
    obtain ⟨n, en, hn⟩ := fill_rep L ⟨k, w, t, i⟩ _ rfl (hi _ h)
    refine ⟨t, n, ht, ?_, hn⟩
    rw [h]
    simp only [Option.map_some, ok_bind, ht]
    simp only at en
    rw [en]; rfl

/-- What is printed. -/
theorem print_rep {L : Libm} {n : Number} {x : Val} (h : NRep L n x) : n.print L = x.shown L := by
  obtain ⟨nk, nw, nv, ni⟩ := n
  obtain ⟨h1, h2, h3, h4, h5⟩ := h
  simp only at h1 h2 h4
  subst h1 h2 h4
  have own : nv x.kind x.width = x.t := NRep.own ⟨rfl, rfl, h3, rfl, h5⟩
  unfold Number.print Val.shown
  cases hx : x.int with
  | none => simp only [Option.getD_none, ne_eq, not_true_eq_false, if_false, own]; rfl
  | some i =>
    have : i ≠ INT64_MAX := by rintro rfl; exact h5 hx
    simp only [Option.getD_some, ne_eq, this, not_false_eq_true, if_true]; rfl

end Takum.Calc
