import Verif.Props.Ordered
import Verif.Props.Precision
import Verif.Lemmas.Points

/-!
# C144: products and quotients lose at most one bit of precision, square roots none
-/

namespace Takum
open Spec

/-- The regime of a number is at most `R` if and only if its bits lie between two bounds. -/
theorem regime_iff {w : W} (t : T w) {R : ℕ} (hR : R ≤ 7) :
    rr (dr t) ≤ R ↔ (7 - R) * 2 ^ (w.n - 5) ≤ low t ∧ low t ≤ (9 + R) * 2 ^ (w.n - 5) - 1 := by
  have h8 := w.n_pos
  have k : ∀ d < 16, ∀ R < 8, rr d ≤ R ↔ 7 - R ≤ d ∧ d < 9 + R := by decide
  have hp : 0 < 2 ^ (w.n - 5) := by positivity
  rw [k _ (dr_lt (by omega) t) R (by omega), dr, Nat.le_div_iff_mul_le hp, Nat.div_lt_iff_lt_mul hp]
  have : 0 < (9 + R) * 2 ^ (w.n - 5) := by positivity
  omega

/-- The first and the last number of a sign with a regime of at most `R`. -/
def corner (w : W) (R : ℕ) (s hi : Bool) : T w := mkT w.n s (if hi then (9 + R) * 2 ^ (w.n - 5) - 1 else (7 - R) * 2 ^ (w.n - 5))

theorem corner_low (w : W) {R : ℕ} (hR : R ≤ 6) (s hi : Bool) :
    (corner w R s hi).msb = s ∧ low (corner w R s hi) = (if hi then (9 + R) * 2 ^ (w.n - 5) - 1 else (7 - R) * 2 ^ (w.n - 5)) ∧
      Regular (corner w R s hi) := by
  have h8 := w.n_pos
  have e : 2 ^ (w.n - 1) = 16 * 2 ^ (w.n - 5) := by rw [show (16 : ℕ) = 2 ^ 4 by norm_num, ← pow_add]; congr 1; omega
  have hp : 0 < 2 ^ (w.n - 5) := by positivity
  have b : (if hi then (9 + R) * 2 ^ (w.n - 5) - 1 else (7 - R) * 2 ^ (w.n - 5)) < 2 ^ (w.n - 1) ∧
      0 < (if hi then (9 + R) * 2 ^ (w.n - 5) - 1 else (7 - R) * 2 ^ (w.n - 5)) := by
    have : (9 + R) * 2 ^ (w.n - 5) ≤ 15 * 2 ^ (w.n - 5) := Nat.mul_le_mul_right _ (by omega)
    have : 9 * 2 ^ (w.n - 5) ≤ (9 + R) * 2 ^ (w.n - 5) := Nat.mul_le_mul_right _ (by omega)
    have : (7 - R) * 2 ^ (w.n - 5) ≤ 7 * 2 ^ (w.n - 5) := Nat.mul_le_mul_right _ (by omega)
    have : 1 * 2 ^ (w.n - 5) ≤ (7 - R) * 2 ^ (w.n - 5) := Nat.mul_le_mul_right _ (by omega)
    rw [e]
    cases hi <;> simp <;> omega
  have m := mkT_msb (by omega : 1 ≤ w.n) s b.1
  have l := mkT_low (by omega : 1 ≤ w.n) s b.1
  refine ⟨m, l, ?_, ?_⟩
  · intro h
    rw [corner] at h
    rw [h] at l
    have : low (0#w.n) = 0 := by simp [low]
    omega
  · intro h
    rw [corner] at h
    rw [h] at l
    have : low (nar w.n) = 0 := by cases w <;> decide
    omega

theorem corner_between {w : W} {t : T w} {R : ℕ} (hR : R ≤ 6) (h : rr (dr t) ≤ R) :
    (corner w R t.msb false).toInt ≤ t.toInt ∧ t.toInt ≤ (corner w R t.msb true).toInt := by
  have h8 := w.n_pos
  obtain ⟨l1, l2⟩ := (regime_iff t (by omega)).mp h
  obtain ⟨m1, e1, -⟩ := corner_low w hR t.msb false
  obtain ⟨m2, e2, -⟩ := corner_low w hR t.msb true
  rw [toInt_mkT (by omega), toInt_mkT (by omega), toInt_mkT (by omega), m1, m2, e1, e2]
  simp only [Bool.false_eq_true, if_false, if_true]
  constructor <;> split <;> omega

/-- What is checked at the corners: a result with the sign `s` and a regime of at most `R`. -/
def within {w : W} (s : Bool) (R : ℕ) : C (T w) → Bool
  | .ok c => c.msb == s && decide (rr (dr c) ≤ R)
  | .error _ => false

theorem within_between {w : W} {u c v : T w} {s : Bool} {R : ℕ} (hR : R ≤ 7) (hu : within s R (.ok u) = true) (hv : within s R (.ok v) = true)
    (h1 : u.toInt ≤ c.toInt) (h2 : c.toInt ≤ v.toInt) : rr (dr c) ≤ R := by
  have h8 := w.n_pos
  simp only [within, Bool.and_eq_true, beq_iff_eq, decide_eq_true_eq] at hu hv
  rw [regime_iff _ hR] at hu hv ⊢
  rw [toInt_mkT (by omega), toInt_mkT (by omega)] at h1 h2
  have l1 := low_lt u
  have l2 := low_lt v
  have l3 := low_lt c
  rw [hu.1] at h1
  rw [hv.1] at h2
  have z : (0 : ℤ) < 2 ^ (w.n - 1) := by positivity
  have l1 : (low u : ℤ) < 2 ^ (w.n - 1) := by exact_mod_cast l1
  have l2 : (low v : ℤ) < 2 ^ (w.n - 1) := by exact_mod_cast l2
  have l3 : (low c : ℤ) < 2 ^ (w.n - 1) := by exact_mod_cast l3
  cases s <;> cases hc : c.msb <;> simp only [hc, Bool.false_eq_true, if_false, if_true] at h1 h2 <;> omega

/-- Products of numbers from two intervals, each of one sign. -/
theorem mul_corners {s s' : Bool} {x y l h l' h' : ℝ} (h1 : l ≤ x) (h2 : x ≤ h) (h3 : l' ≤ y) (h4 : y ≤ h') (hs : if s then h < 0 else 0 < l)
    (hs' : if s' then h' < 0 else 0 < l') :
    (if s' then h else l) * (if s then h' else l') ≤ x * y ∧ x * y ≤ (if s' then l else h) * (if s then l' else h') := by
  cases s <;> cases s' <;> simp only [Bool.false_eq_true, if_false, if_true] at hs hs' ⊢
  · exact ⟨mul_le_mul h1 h3 hs'.le (hs.le.trans h1), mul_le_mul h2 h4 (hs'.le.trans h3) (hs.le.trans (h1.trans h2))⟩
  · constructor <;> nlinarith [mul_nonneg (sub_nonneg.mpr h1) (sub_nonneg.mpr h3), mul_nonneg (sub_nonneg.mpr h2) (sub_nonneg.mpr h4)]
  · constructor <;> nlinarith
  · constructor <;> nlinarith

/-- The check at the corners; for a quotient the second argument is at the other end. -/
def cornersOk (op : (w : W) → T w → T w → C (T w)) (flip : Bool) (w : W) (R : ℕ) : Bool :=
  [false, true].all fun s => [false, true].all fun s' =>
    within (s != s') (R + 1) (op w (corner w R s s') (corner w R s' (s != flip))) &&
    within (s != s') (R + 1) (op w (corner w R s !s') (corner w R s' !(s != flip)))

/-- An operation that is ordered like the values of a function of two reals. -/
def OrderedBy (k : Kind) (f : ℝ → ℝ → ℝ) (op : (w : W) → T w → T w → C (T w)) : Prop :=
  ∀ (w : W) (a b a' b' : T w) (x y x' y' : ℝ), value k a = some x → value k b = some y → value k a' = some x' → value k b' = some y' →
    y ≠ 0 → y' ≠ 0 → f x y ≤ f x' y' → ∃ u v : T w, op w a b = .ok u ∧ op w a' b' = .ok v ∧ u.toInt ≤ v.toInt

theorem regime_product {k : Kind} {f : ℝ → ℝ → ℝ} {op : (w : W) → T w → T w → C (T w)} (flip : Bool) (ho : OrderedBy k f op)
    (hf : ∀ (s s' : Bool) (x y l h l' h' : ℝ), l ≤ x → x ≤ h → l' ≤ y → y ≤ h' → (if s then h < 0 else 0 < l) → (if s' then h' < 0 else 0 < l') →
      f (if s' then h else l) (if s != flip then h' else l') ≤ f x y ∧ f x y ≤ f (if s' then l else h) (if s != flip then l' else h'))
    (hc : ∀ w, ∀ R < 7, (w = .w8 ∧ 3 ≤ R) ∨ cornersOk op flip w R = true) {w : W} {a b c : T w} (ha : Regular a) (hb : Regular b) (h : op w a b = .ok c) :
    (w = .w8 ∧ 3 ≤ max (rr (dr a)) (rr (dr b))) ∨ rr (dr c) ≤ max (rr (dr a)) (rr (dr b)) + 1 := by
  have h8 := w.n_pos
  by_cases hR : max (rr (dr a)) (rr (dr b)) ≤ 6
  · generalize hRe : max (rr (dr a)) (rr (dr b)) = R at hR ⊢
    have la := corner_between (t := a) hR (by omega)
    have lb := corner_between (t := b) hR (by omega)
    have ck : ∀ s hi, ∃ x, value k (corner w R s hi) = some x ∧ (s = true ↔ x < 0) ∧ x ≠ 0 := by
      intro s hi
      obtain ⟨m, -, r⟩ := corner_low w hR s hi
      obtain ⟨x, hx⟩ := value_val k r.2
      refine ⟨x, hx, by rw [← m]; exact value_sign k r hx, ?_⟩
      rintro rfl
      exact r.1 (value_inj hx (value_zero k))
    obtain ⟨x, hx⟩ := value_val k ha.2
    obtain ⟨y, hy⟩ := value_val k hb.2
    have y0 : y ≠ 0 := by
      rintro rfl
      exact hb.1 (value_inj hy (value_zero k))
    obtain ⟨l, vl, sl, zl⟩ := ck a.msb false
    obtain ⟨u, vu, su, zu⟩ := ck a.msb true
    obtain ⟨l', vl', sl', zl'⟩ := ck b.msb false
    obtain ⟨u', vu', su', zu'⟩ := ck b.msb true
    obtain ⟨f1, f2⟩ := hf a.msb b.msb x y l u l' u' ((value_order k vl hx).mp la.1) ((value_order k hx vu).mp la.2) ((value_order k vl' hy).mp lb.1)
      ((value_order k hy vu').mp lb.2)
      (by
        cases hm : a.msb
        · simp only [hm, Bool.false_eq_true, false_iff, not_lt, if_false] at sl ⊢
          exact lt_of_le_of_ne sl (Ne.symm zl)
        · simp only [hm, true_iff, if_true] at su ⊢
          exact su)
      (by
        cases hm : b.msb
        · simp only [hm, Bool.false_eq_true, false_iff, not_lt, if_false] at sl' ⊢
          exact lt_of_le_of_ne sl' (Ne.symm zl')
        · simp only [hm, true_iff, if_true] at su' ⊢
          exact su')
    have pick : ∀ (s i : Bool) (l u : ℝ), value k (corner w R s false) = some l → value k (corner w R s true) = some u →
        value k (corner w R s i) = some (if i then u else l) := by
      intro s i l u h1 h2
      cases i
      · exact h1
      · exact h2
    have hne : ∀ i : Bool, (if i then u' else l') ≠ 0 := by intro i; cases i <;> assumption
    have pn : ∀ (i : Bool) (l u : ℝ), (if i then l else u) = if !i then u else l := by intro i l u; cases i <;> rfl
    refine (hc w R (by omega)).imp_right fun hc => ?_
    have hcs := List.all_eq_true.mp (List.all_eq_true.mp hc a.msb (by cases a.msb <;> decide)) b.msb (by cases b.msb <;> decide)
    rw [Bool.and_eq_true] at hcs
    obtain ⟨r1, c1, e1, e2, o1⟩ := ho w (corner w R a.msb b.msb) (corner w R b.msb (a.msb != flip)) a b _ _ x y (pick _ _ l u vl vu)
      (pick _ _ l' u' vl' vu') hx hy (hne _) y0 f1
    rw [pn b.msb, pn (a.msb != flip)] at f2
    obtain ⟨c2, r2, e3, e4, o2⟩ := ho w a b (corner w R a.msb !b.msb) (corner w R b.msb !(a.msb != flip)) x y _ _ hx hy (pick _ _ l u vl vu)
      (pick _ _ l' u' vl' vu') y0 (hne _) f2
    rw [h] at e2 e3
    cases e2
    cases e3
    rw [e1, e4] at hcs
    exact within_between (by omega) hcs.1 hcs.2 o1 o2
  · have := rr_le _ (dr_lt (by omega) c)
    right
    omega

theorem div_corners (s s' : Bool) (x y l h l' h' : ℝ) (h1 : l ≤ x) (h2 : x ≤ h) (h3 : l' ≤ y) (h4 : y ≤ h') (hs : if s then h < 0 else 0 < l)
    (hs' : if s' then h' < 0 else 0 < l') :
    (if s' then h else l) / (if s != true then h' else l') ≤ x / y ∧ x / y ≤ (if s' then l else h) / (if s != true then l' else h') := by
  have key := mul_corners (s := s) (s' := s') (x := x) (y := y⁻¹) (l := l) (h := h) (l' := h'⁻¹) (h' := l'⁻¹) h1 h2 (by
      cases s' <;> simp only [Bool.false_eq_true, if_false, if_true] at hs'
      · exact inv_anti₀ (hs'.trans_le h3) h4
      · exact (inv_le_inv_of_neg hs' (h4.trans_lt hs')).mpr h4) (by
      cases s' <;> simp only [Bool.false_eq_true, if_false, if_true] at hs'
      · exact inv_anti₀ hs' h3
      · exact (inv_le_inv_of_neg (h4.trans_lt hs') ((h3.trans h4).trans_lt hs')).mpr h3) hs (by
      cases s' <;> simp only [Bool.false_eq_true, if_false, if_true] at hs' ⊢
      · exact inv_pos.mpr (hs'.trans_le (h3.trans h4))
      · exact inv_lt_zero.mpr ((h3.trans h4).trans_lt hs'))
  simp only [div_eq_mul_inv]
  cases s <;> simpa using key

theorem lin_mul_check : ∀ w, ∀ R < 7, (w = .w8 ∧ 3 ≤ R) ∨ cornersOk linMultiplication false w R = true := by
  intro w; cases w <;> decide +kernel
theorem lin_div_check : ∀ w, ∀ R < 7, (w = .w8 ∧ 3 ≤ R) ∨ cornersOk linDivision true w R = true := by
  intro w; cases w <;> decide +kernel
theorem log_mul_check : ∀ w, ∀ R < 7, (w = .w8 ∧ 3 ≤ R) ∨ cornersOk multiplication false w R = true := by
  intro w; cases w <;> decide +kernel
theorem log_div_check : ∀ w, ∀ R < 7, (w = .w8 ∧ 3 ≤ R) ∨ cornersOk division true w R = true := by
  intro w; cases w <;> decide +kernel

theorem lin_mul_ordered : OrderedBy .lin (· * ·) linMultiplication := fun w a b a' b' _ _ _ _ h1 h2 h3 h4 _ _ h =>
  lin_operations_ordered w (.mul a b) (.mul a' b') _ _ (.mul h1 h2) (.mul h3 h4) h
theorem lin_div_ordered : OrderedBy .lin (· / ·) linDivision := fun w a b a' b' _ _ _ _ h1 h2 h3 h4 z z' h =>
  lin_operations_ordered w (.div a b) (.div a' b') _ _ (.div h1 h2 z) (.div h3 h4 z') h
theorem log_mul_ordered : OrderedBy .log (· * ·) multiplication := fun w a b a' b' _ _ _ _ h1 h2 h3 h4 _ _ h =>
  log_operations_ordered ideal w (.mul a b) (.mul a' b') _ _ (.mul h1 h2) (.mul h3 h4) h
theorem log_div_ordered : OrderedBy .log (· / ·) division := fun w a b a' b' _ _ _ _ h1 h2 h3 h4 z z' h =>
  log_operations_ordered ideal w (.div a b) (.div a' b') _ _ (.div h1 h2 z) (.div h3 h4 z') h

theorem precision_loss {w : W} {a b c : T w} {p q s : ℕ} (hp : precision w a = .ok p) (hq : precision w b = .ok q) (hs : precision w c = .ok s)
    (h : (w = .w8 ∧ 3 ≤ max (rr (dr a)) (rr (dr b))) ∨ rr (dr c) ≤ max (rr (dr a)) (rr (dr b)) + 1) : min p q ≤ s + 1 := by
  rw [precision_dr] at hp hq hs
  cases hp
  cases hq
  cases hs
  rcases h with ⟨rfl, h⟩ | h
  · simp only [W.n]
    omega
  · omega

/-- C144. The product of two regular numbers, linear or logarithmic, has at least the precision of the less
precise of the two, less one bit. -/
theorem product_precision (k : Kind) (w : W) (a b c : T w) (p q s : ℕ) (ha : Regular a) (hb : Regular b)
    (h : (match k with | .lin => linMultiplication w a b | .log => multiplication w a b) = .ok c)
    (hp : precision w a = .ok p) (hq : precision w b = .ok q) (hs : precision w c = .ok s) : min p q ≤ s + 1 := by
  refine precision_loss hp hq hs ?_
  have hf := fun (s s' : Bool) (x y l h l' h' : ℝ) h1 h2 h3 h4 hs hs' =>
    mul_corners (s := s) (s' := s') (x := x) (y := y) (l := l) (h := h) (l' := l') (h' := h') h1 h2 h3 h4 hs hs'
  cases k
  · exact regime_product false log_mul_ordered (by simpa using hf) log_mul_check ha hb h
  · exact regime_product false lin_mul_ordered (by simpa using hf) lin_mul_check ha hb h

/-- C144. The same for the quotient. -/
theorem quotient_precision (k : Kind) (w : W) (a b c : T w) (p q s : ℕ) (ha : Regular a) (hb : Regular b)
    (h : (match k with | .lin => linDivision w a b | .log => division w a b) = .ok c)
    (hp : precision w a = .ok p) (hq : precision w b = .ok q) (hs : precision w c = .ok s) : min p q ≤ s + 1 := by
  refine precision_loss hp hq hs ?_
  cases k
  · exact regime_product true log_div_ordered div_corners log_div_check ha hb h
  · exact regime_product true lin_div_ordered div_corners lin_div_check ha hb h

theorem root_check : ∀ w, ∀ R < 7, ∀ hi, within false R (linSquareRoot w (corner w R false hi)) = true ∧
    within false R (squareRoot w (corner w R false hi)) = true := by
  intro w; cases w <;> decide +kernel

/-- C144. The square root of a positive number has at least the precision of the number. -/
theorem root_precision (k : Kind) (w : W) (a c : T w) (p s : ℕ) (ha : 0 < a.toInt)
    (h : (match k with | .lin => linSquareRoot w a | .log => squareRoot w a) = .ok c)
    (hp : precision w a = .ok p) (hs : precision w c = .ok s) : p ≤ s := by
  have h8 := w.n_pos
  rw [precision_dr] at hp hs
  cases hp
  cases hs
  suffices rr (dr c) ≤ rr (dr a) by omega
  have hm : a.msb = false := by
    rw [← Bool.not_eq_true, ← isNeg_iff]
    omega
  by_cases hR : rr (dr a) ≤ 6
  · obtain ⟨o1, o2⟩ := corner_between hR le_rfl
    have o0 : 0 ≤ (corner w (rr (dr a)) a.msb false).toInt := by
      have := (corner_low w hR a.msb false).1
      rw [hm, ← Bool.not_eq_true, ← isNeg_iff] at this
      rw [hm]
      omega
    rw [hm] at o0 o1 o2
    have c1 := root_check w _ (by omega : rr (dr a) < 7) false
    have c2 := root_check w _ (by omega : rr (dr a) < 7) true
    cases k
    · obtain ⟨u, v, e1, e2, l1⟩ := squareRoot_monotone w _ _ o0 o1
      obtain ⟨v', u', e3, e4, l2⟩ := squareRoot_monotone w _ _ ha.le o2
      simp only at h
      rw [h] at e2 e3
      cases e2
      cases e3
      rw [e1] at c1
      rw [e4] at c2
      exact within_between (by omega) c1.2 c2.2 l1 l2
    · obtain ⟨u, v, e1, e2, l1⟩ := lin_squareRoot_monotone w _ _ o0 o1
      obtain ⟨v', u', e3, e4, l2⟩ := lin_squareRoot_monotone w _ _ ha.le o2
      simp only at h
      rw [h] at e2 e3
      cases e2
      cases e3
      rw [e1] at c1
      rw [e4] at c2
      exact within_between (by omega) c1.1 c2.1 l1 l2
  · have := rr_le _ (dr_lt (by omega) c)
    omega

/-- The bit can be lost: 1.5 and 1.5 of `takum_linear16` have eleven bits, 2.25 has ten. (The examples below: 4 times 1/4 is more
precise than both; 1.5 divided by 0.375 loses a bit; the square root of 64 and more gains one.) -/
theorem product_precision_sharp : ∃ a c : T .w16, Regular a ∧ linMultiplication .w16 a a = .ok c ∧ precision .w16 a = .ok 11 ∧ precision .w16 c = .ok 10 :=
  ⟨0x4400#16, 0x4880#16, ⟨by decide, by decide⟩, by decide +kernel, by decide +kernel, by decide +kernel⟩

example : ∃ c : T .w32, multiplication .w32 0x4c000000#32 0x34000000#32 = .ok c ∧ precision .w32 0x4c000000#32 = .ok 26 ∧
    precision .w32 0x34000000#32 = .ok 26 ∧ precision .w32 c = .ok 27 :=
  ⟨0x40000000#32, by decide +kernel, by decide +kernel, by decide +kernel⟩

example : ∃ c : T .w16, linDivision .w16 0x4400#16 0x3200#16 = .ok c ∧ precision .w16 0x4400#16 = .ok 11 ∧ precision .w16 0x3200#16 = .ok 10 ∧
    precision .w16 c = .ok 9 :=
  ⟨0x5000#16, by decide +kernel, by decide +kernel, by decide +kernel, by decide +kernel⟩

example : ∃ c : T .w16, (0 : ℤ) < (0x6000#16 : T .w16).toInt ∧ linSquareRoot .w16 0x6000#16 = .ok c ∧ precision .w16 0x6000#16 = .ok 7 ∧
    precision .w16 c = .ok 8 :=
  ⟨0x586a#16, by decide, by decide +kernel, by decide +kernel, by decide +kernel⟩

end Takum
