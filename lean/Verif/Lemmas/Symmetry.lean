import Verif.SymSpec
import Verif.Lemmas.Elem
import Verif.Lemmas.LogAdd
import Verif.Lemmas.ConvAcc
import Verif.Lemmas.Ideal
import Verif.Props.LinFloat
import Mathlib.Analysis.Real.Pi.Irrational

/-! # Symmetries of the float operations -/

namespace Takum
open Spec

namespace Fl

theorem neg_neg' (x : Fl) : x.neg.neg = x := by cases x <;> simp [neg]

theorem In.neg {F : Fmt} {x : Fl} (h : x.In F) : x.neg.In F := by
  cases x with
  | num q => exact ⟨neg_ne_zero.mpr h.1, In_neg h.2⟩
  | _ => trivial

theorem In.ne {F : Fmt} {x : Fl} (h : x.In F) : x ≠ .num 0 := by
  rintro rfl; exact h.1 rfl

theorem mk_neg {z : Bool} {q : ℚ} : mk (!z) (-q) = (mk z q).neg := by
  unfold mk; by_cases h : q = 0 <;> simp [h, Fl.neg]

theorem round_neg {F : Fmt} {z z' : Bool} {q : ℚ} (h : q ≠ 0) : round F z' (-q) = (round F z q).neg := by
  unfold round
  rw [if_neg (neg_ne_zero.mpr h), if_neg h, F.rq_neg, abs_neg]
  have hs : decide (-q < 0) = !decide (q < 0) := by
    rcases lt_or_gt_of_ne h with h0 | h0
    · simp [h0, h0.le]
    · simp [h0, h0.le]
  rw [hs]
  split_ifs
  · rfl
  · exact mk_neg

theorem round_neg' {F : Fmt} {z : Bool} {q : ℚ} : round F (!z) (-q) = (round F z q).neg := by
  by_cases h : q = 0
  · unfold round; simp [h, Fl.neg]
  · exact round_neg h

theorem round_type {F : Fmt} (hF : F = b32 ∨ F = b64 ∨ F = x80) (z : Bool) (q : ℚ) : (round F z q).In F := by
  unfold round
  split_ifs with h1 h2
  · trivial
  · trivial
  · unfold mk
    split_ifs with h3
    · trivial
    · exact ⟨h3, F.rq_rep (std_prec hF) q, not_le.mp h2⟩

theorem sgn_num_neg {q : ℚ} (h : q ≠ 0) : sgn (.num (-q)) = !sgn (.num q) := by
  unfold sgn
  rcases lt_or_gt_of_ne h with h0 | h0
  · simp [h0, h0.le]
  · simp [h0, h0.le]

theorem cast_neg {F : Fmt} {x : Fl} (h : x ≠ .num 0) : cast F x.neg = (cast F x).neg := by
  cases x with
  | num q => exact round_neg (fun e => h (by rw [e]))
  | _ => rfl

theorem cast_type {F : Fmt} (hF : F = b32 ∨ F = b64 ∨ F = x80) (x : Fl) : (cast F x).In F := by
  cases x with
  | num q => exact round_type hF _ _
  | _ => trivial

theorem one_div_neg {F : Fmt} {x : Fl} (h : x ≠ .num 0) : div F (.num 1) x.neg = (div F (.num 1) x).neg := by
  cases x with
  | nan => rfl
  | inf s => simp [div, Fl.neg, sgn]
  | zero s => simp [div, Fl.neg, sgn]
  | num q =>
    have hq : q ≠ 0 := fun e => h (by rw [e])
    show round F _ (1 / -q) = (round F _ (1 / q)).neg
    rw [div_neg]
    exact round_neg (one_div_ne_zero hq)

theorem div_num_neg {F : Fmt} {x : Fl} {p : ℚ} (h : x ≠ .num 0) (hp : p ≠ 0) : div F x.neg (.num p) = (div F x (.num p)).neg := by
  cases x with
  | nan => rfl
  | inf s => simp [div, Fl.neg]
  | zero s =>
    show round F _ (0 / p) = (round F _ (0 / p)).neg
    have : (xor (!s) (sgn (.num p))) = !(xor s (sgn (.num p))) := by cases s <;> cases sgn (.num p) <;> rfl
    rw [show (zero !s).sgn = !s from rfl, show (zero s).sgn = s from rfl, this, ← round_neg', zero_div, neg_zero]
  | num q =>
    have hq : q ≠ 0 := fun e => h (by rw [e])
    show round F _ (-q / p) = (round F _ (q / p)).neg
    rw [neg_div]
    exact round_neg (div_ne_zero hq hp)

theorem div_type {F : Fmt} (hF : F = b32 ∨ F = b64 ∨ F = x80) (x y : Fl) : (div F x y).In F := by
  cases x <;> cases y <;> first | trivial | exact round_type hF _ _

theorem mul_num_neg {F : Fmt} {x : Fl} {p : ℚ} (h : x ≠ .num 0) (hp : p ≠ 0) : mul F (.num p) x.neg = (mul F (.num p) x).neg := by
  cases x with
  | nan => rfl
  | inf s =>
    show inf (xor _ _) = (inf (xor _ _)).neg
    simp [Fl.neg]
  | zero s =>
    show round F _ (p * 0) = (round F _ (p * 0)).neg
    have : (xor (sgn (.num p)) (!s)) = !(xor (sgn (.num p)) s) := by cases s <;> cases sgn (.num p) <;> rfl
    rw [show (zero s).neg.sgn = !s from rfl, show (zero s).sgn = s from rfl, this, ← round_neg', mul_zero, neg_zero]
  | num q =>
    have hq : q ≠ 0 := fun e => h (by rw [e])
    show round F _ (p * -q) = (round F _ (p * q)).neg
    rw [mul_neg]
    exact round_neg (mul_ne_zero hp hq)

theorem mul_type {F : Fmt} (hF : F = b32 ∨ F = b64 ∨ F = x80) (x y : Fl) : (mul F x y).In F := by
  cases x <;> cases y <;> first | trivial | exact round_type hF _ _

end Fl

theorem std3 {F : Fmt} (h : F = b64 ∨ F = x80) : F = b32 ∨ F = b64 ∨ F = x80 := Or.inr h

theorem pi_num : ∃ p : ℚ, PI = .num p ∧ p ≠ 0 := by
  refine ⟨_, rfl, ?_⟩; decide +kernel

/-- The `long double` functions at a number other than 0. -/
theorem evl_odd {L : Libm} (hS : L.Symmetric) {u : UFun} (hu : u.isOdd = true) {x : Fl} (hx : x.In x80) :
    u.evl L x.neg = (u.evl L x).neg ∧ (u.evl L x).In x80 := by
  obtain ⟨p, hp, hp0⟩ := pi_num
  have X : x80 = b64 ∨ x80 = x80 := Or.inr rfl
  have X3 := std3 X
  have B : b64 = b64 ∨ b64 = x80 := Or.inl rfl
  have B3 := std3 B
  have inv : ∀ {y : Fl}, y.In x80 → Fl.div x80 (.num 1) y.neg = (Fl.div x80 (.num 1) y).neg := fun h => Fl.one_div_neg h.ne
  have it : ∀ y : Fl, (Fl.div x80 (.num 1) y).In x80 := fun y => Fl.div_type X3 _ _
  have ob : ∀ f, OddFn f → f b64 (Fl.cast b64 (Fl.div x80 (.num 1) x.neg)) = (f b64 (Fl.cast b64 (Fl.div x80 (.num 1) x))).neg ∧
      (f b64 (Fl.cast b64 (Fl.div x80 (.num 1) x))).In x80 := by
    intro f hf
    have c := Fl.cast_type B3 (Fl.div x80 (.num 1) x)
    rw [inv hx, Fl.cast_neg (it x).ne, hf.neg b64 B _ c]
    refine ⟨rfl, ?_⟩
    have := hf.type b64 B _ c
    generalize f b64 (Fl.cast b64 (Fl.div x80 (.num 1) x)) = z at *
    cases z with
    | num q => exact ⟨this.1, Fmt.b64_x80 this.2⟩
    | _ => trivial
  have over : ∀ {f}, OddFn f → Fl.div x80 (f x80 x.neg) PI = (Fl.div x80 (f x80 x) PI).neg ∧ (Fl.div x80 (f x80 x) PI).In x80 := by
    intro f hf
    rw [hf.neg _ X _ hx, hp]
    exact ⟨Fl.div_num_neg (hf.type _ X _ hx).ne hp0, Fl.div_type X3 _ _⟩
  have one : ∀ {f}, OddFn f → Fl.div x80 (.num 1) (f x80 x.neg) = (Fl.div x80 (.num 1) (f x80 x)).neg ∧
      (Fl.div x80 (.num 1) (f x80 x)).In x80 := by
    intro f hf
    rw [hf.neg _ X _ hx]
    exact ⟨inv (hf.type _ X _ hx), it _⟩
  have plain : ∀ {f}, OddFn f → f x80 x.neg = (f x80 x).neg ∧ (f x80 x).In x80 := fun hf => ⟨hf.neg _ X _ hx, hf.type _ X _ hx⟩
  cases u <;> first | cases hu | skip
  · exact plain hS.sin
  · exact plain hS.tan
  · exact one hS.sin
  · exact one hS.tan
  · exact plain hS.asin
  · exact plain hS.atan
  · show L.asin x80 _ = (L.asin x80 _).neg ∧ _
    rw [inv hx]
    exact ⟨hS.asin.neg _ X _ (it x), hS.asin.type _ X _ (it x)⟩
  · exact over hS.asin
  · exact over hS.atan
  · show Fl.div x80 (L.asin x80 _) PI = (Fl.div x80 (L.asin x80 _) PI).neg ∧ _
    rw [inv hx, hS.asin.neg _ X _ (it x), hp]
    exact ⟨Fl.div_num_neg (hS.asin.type _ X _ (it x)).ne hp0, Fl.div_type X3 _ _⟩
  · exact plain hS.sinh
  · exact plain hS.tanh
  · exact one hS.sinh
  · exact one hS.tanh
  · exact plain hS.asinh
  · exact plain hS.atanh
  · exact ob _ hS.asinh
  · exact ob _ hS.atanh

theorem In_b64_x80 {x : Fl} (h : x.In b64) : x.In x80 := by
  cases x with
  | num q => exact ⟨h.1, Fmt.b64_x80 h.2⟩
  | _ => trivial

theorem ev_odd {L : Libm} (hS : L.Symmetric) {u : UFun} (hu : u.isOdd = true) {F : Fmt} (hF : F = b64 ∨ F = x80) {x : Fl} (hx : x.In F) :
    u.ev L F x.neg = (u.ev L F x).neg ∧ (u.ev L F x).In F := by
  unfold UFun.ev
  rcases hF with rfl | rfl
  · rw [if_pos rfl, if_pos rfl]
    have B : b64 = b64 ∨ b64 = x80 := Or.inl rfl
    have plain : ∀ {f}, OddFn f → f b64 x.neg = (f b64 x).neg ∧ (f b64 x).In b64 := fun hf => ⟨hf.neg _ B _ hx, hf.type _ B _ hx⟩
    obtain ⟨e1, e2⟩ := evl_odd hS hu (In_b64_x80 hx)
    have cast : Fl.cast b64 (u.evl L x.neg) = (Fl.cast b64 (u.evl L x)).neg ∧ (Fl.cast b64 (u.evl L x)).In b64 := by
      rw [e1]; exact ⟨Fl.cast_neg e2.ne, Fl.cast_type (std3 B) _⟩
    cases u <;> first | cases hu | skip
    · exact plain hS.sin
    · exact plain hS.tan
    · exact cast
    · exact cast
    · exact plain hS.asin
    · exact plain hS.atan
    · exact cast
    · exact cast
    · exact cast
    · exact cast
    · exact plain hS.sinh
    · exact plain hS.tanh
    · exact cast
    · exact cast
    · exact plain hS.asinh
    · exact plain hS.atanh
    · exact cast
    · exact cast
  · rw [if_neg (by decide), if_neg (by decide)]
    exact evl_odd hS hu hx

/-- The even functions. -/
theorem ev_even {L : Libm} (hS : L.Symmetric) {u : UFun} (hu : u.isEven = true) {F : Fmt} (hF : F = b64 ∨ F = x80) {x : Fl} (hx : x.In F) :
    u.ev L F x.neg = u.ev L F x ∧ u.evl L x.neg = u.evl L x := by
  have X : x80 = b64 ∨ x80 = x80 := Or.inr rfl
  have hx' : x.In x80 := by
    rcases hF with rfl | rfl
    · exact In_b64_x80 hx
    · exact hx
  have c := hS.cos.neg _ X _ hx'
  have ch := hS.cosh.neg _ X _ hx'
  have evl : u.evl L x.neg = u.evl L x := by
    cases u <;> first | cases hu | skip
    · exact c
    · show Fl.div x80 _ (L.cos x80 _) = Fl.div x80 _ (L.cos x80 _); rw [c]
    · exact ch
    · show Fl.div x80 _ (L.cosh x80 _) = Fl.div x80 _ (L.cosh x80 _); rw [ch]
  refine ⟨?_, evl⟩
  unfold UFun.ev
  rcases hF with rfl | rfl
  · rw [if_pos rfl, if_pos rfl]
    have B : b64 = b64 ∨ b64 = x80 := Or.inl rfl
    cases u <;> first | cases hu | skip
    · exact hS.cos.neg _ B _ hx
    · show Fl.cast b64 (UFun.evl L .sec _) = Fl.cast b64 (UFun.evl L .sec _); rw [evl]
    · exact hS.cosh.neg _ B _ hx
    · show Fl.div b64 _ (L.cosh b64 _) = Fl.div b64 _ (L.cosh b64 _); rw [hS.cosh.neg _ B _ hx]
  · rw [if_neg (by decide), if_neg (by decide)]; exact evl

theorem dbl_max_in {F : Fmt} (hF : F = b64 ∨ F = x80) : DBL_MAX.In F ∧ DBL_MIN.In F := by
  have h : (DBL_MAX.In b64 ∧ DBL_MIN.In b64) := by
    refine ⟨⟨by decide +kernel, ⟨2 ^ 53 - 1, 971, ?_, by decide, by decide⟩, ?_⟩, ⟨by decide +kernel, ⟨1, -1022, ?_, by decide, by decide⟩, ?_⟩⟩ <;>
      decide +kernel
  rcases hF with rfl | rfl
  · exact h
  · exact ⟨In_b64_x80 h.1, In_b64_x80 h.2⟩

/-- The fixers of odd functions. -/
theorem fix_odd {u : UFun} (hu : u.isOdd = true) {F : Fmt} (hF : F = b64 ∨ F = x80) {q : ℚ} (hq : q ≠ 0) {y : Fl} (hy : y.In F) :
    u.fix (.num (-q)) y.neg = (u.fix (.num q) y).neg ∧ (u.fix (.num q) y).In F := by
  obtain ⟨m1, m2⟩ := dbl_max_in hF
  have hs : fixSinh (.num (-q)) y.neg = (fixSinh (.num q) y).neg ∧ (fixSinh (.num q) y).In F := by
    cases y with
    | nan => exact ⟨rfl, trivial⟩
    | zero s => exact ⟨rfl, trivial⟩
    | num q => exact ⟨rfl, hy⟩
    | inf s =>
      cases s
      · exact ⟨rfl, m1⟩
      · refine ⟨?_, m1.neg⟩
        show DBL_MAX = DBL_MAX.neg.neg
        rw [Fl.neg_neg']
  have hc : fixCsch (.num (-q)) y.neg = (fixCsch (.num q) y).neg ∧ (fixCsch (.num q) y).In F := by
    have hlt : ∀ r : ℚ, Fl.lt (.num r) (.zero false) = decide (r < 0) := fun r => rfl
    cases y with
    | nan => exact ⟨rfl, trivial⟩
    | inf s => exact ⟨rfl, trivial⟩
    | num r =>
      have e : Fl.eq (.num r) (.zero false) = false := by simp [Fl.eq, Fl.toQ, hy.1]
      have e' : Fl.eq (.num (-r)) (.zero false) = false := by simp [Fl.eq, Fl.toQ, hy.1]
      unfold fixCsch
      rw [show (Fl.num r).neg = .num (-r) from rfl, e, e']
      exact ⟨rfl, hy⟩
    | zero s =>
      unfold fixCsch
      rw [show (Fl.zero s).neg = .zero (!s) from rfl, show Fl.eq (.zero s) (.zero false) = true from rfl,
        show Fl.eq (.zero (!s)) (.zero false) = true from rfl, hlt, hlt]
      rcases lt_or_gt_of_ne hq with h | h
      · simp only [if_true, decide_eq_true_eq, h, Left.neg_neg_iff, not_lt.mpr h.le, if_false]
        exact ⟨by rw [Fl.neg_neg'], m2.neg⟩
      · simp only [if_true, decide_eq_true_eq, h, Left.neg_neg_iff, not_lt.mpr h.le, if_false]
        exact ⟨trivial, m2⟩
  cases u <;> first | cases hu | skip
  all_goals first | exact hs | exact hc | exact ⟨rfl, hy⟩

/-- At 0 an odd function is 0, or there is no value. -/
theorem ev_zero_odd {L : Libm} (hL : L.Conforming) (hS : L.Symmetric) {u : UFun} (hu : u.isOdd = true) {F : Fmt} (hF : F = b64 ∨ F = x80) :
    (∃ s, u.fix (.zero false) (u.ev L F (.zero false)) = .zero s) ∨ (u.fix (.zero false) (u.ev L F (.zero false))).isfinite = false := by
  obtain ⟨p, hp, hp0⟩ := pi_num
  have X : x80 = b64 ∨ x80 = x80 := Or.inr rfl
  have inf : Fl.div x80 (.num 1) (.zero false) = .inf false := rfl
  have d0 : ∀ G s, ∃ s', Fl.div G (.zero s) PI = .zero s' := by
    intro G s
    rw [hp]
    refine ⟨xor (Fl.zero s).sgn (Fl.num p).sgn, ?_⟩
    simp [Fl.div, Fl.round, Fl.toQ]
  obtain ⟨s0, e0⟩ := d0 x80 false
  unfold UFun.ev
  rcases hF with rfl | rfl
  · rw [if_pos rfl]
    cases u <;> first | cases hu | skip
    all_goals simp only [UFun.evd, UFun.evl, cscl, cotl, hS.sin.zero, hS.tan.zero, hS.asin.zero, hS.atan.zero, hS.sinh.zero, hS.tanh.zero,
      hS.asinh.zero, hS.atanh.zero, inf, hL.inverses.asin_inf, show Fl.cast b64 (.inf false) = .inf false from rfl, hL.inverses.asinh_inf,
      hL.inverses.atanh_inf, e0]
    all_goals first | exact Or.inl ⟨_, rfl⟩ | exact Or.inr rfl
  · rw [if_neg (by decide)]
    cases u <;> first | cases hu | skip
    all_goals simp only [UFun.evl, cscl, cotl, hS.sin.zero, hS.tan.zero, hS.asin.zero, hS.atan.zero, hS.sinh.zero, hS.tanh.zero,
      hS.asinh.zero, hS.atanh.zero, inf, hL.inverses.asin_inf, show Fl.cast b64 (.inf false) = .inf false from rfl, hL.inverses.asinh_inf,
      hL.inverses.atanh_inf, e0]
    all_goals first | exact Or.inl ⟨_, rfl⟩ | exact Or.inr rfl

end Takum
