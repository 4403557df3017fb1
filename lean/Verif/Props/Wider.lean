import Verif.Lemmas.Sterbenz
import Verif.Props.LogArith
import Verif.Props.Widths
import Verif.Props.ErrorFree

/-!
# C114: logarithmic arithmetic in a wider type, narrowed, is the arithmetic of the narrow type
-/

namespace Takum
open Spec

/-- The position of a takum on the logarithmic scale is a multiple of `2^-(n-5)`. -/
theorem ell_multiple_n {w : W} (t : T w) : ∃ k : ℤ, ell t * 2 ^ (w.n - 5) = k := by
  have h8 := w.n_pos
  obtain ⟨d, hd, h1, h2⟩ := exists_piece (pos_nonneg t) (pos_lt (by omega) t)
  have e := psi_eq_piece h1 h2
  have : pos t * 2 ^ (w.n - 5) = low t := by unfold pos; field_simp; push_cast; rfl
  have key : ∃ k : ℤ, psi (pos t) * 2 ^ (w.n - 5) = k := by
    refine ⟨bias d * 2 ^ (w.n - 5) + 2 ^ rr d * (low t - d * 2 ^ (w.n - 5)), ?_⟩
    rw [e]; unfold piece
    push_cast
    linear_combination (2 : ℚ) ^ rr d * this
  obtain ⟨k, hk⟩ := key
  rw [ell_sg (by omega)]
  cases t.msb
  · exact ⟨k, by simp only [sg]; rw [← hk]; simp⟩
  · exact ⟨-k, by simp only [sg]; push_cast; rw [← hk]; simp⟩

/-- Of two equally near takums of one sign with different positions one lies in between, unless they
are neighbours, of which one is odd. -/
theorem nearestEll_between {n : ℕ} {s : Bool} {q : ℚ} {t t' : BitVec n} (hn : 5 ≤ n) (h : NearestEll s q t) (h' : NearestEll s q t')
    (hl : low t < low t') (k : t.toNat % 2 = 0) (k' : t'.toNat % 2 = 0) (g : |ell t - q| = |ell t' - q|) : False := by
  have hn1 : 1 ≤ n := by omega
  have b' := low_lt t'
  have par : ∀ u : BitVec n, low u % 2 = u.toNat % 2 := fun u => by
    unfold low; exact Nat.mod_mod_of_dvd _ (dvd_pow_self 2 (by omega))
  have p := par t
  have p' := par t'
  have mm : (mkT n s (low t + 1)).msb = s := mkT_msb hn1 _ (by omega)
  have ml : low (mkT n s (low t + 1)) = low t + 1 := mkT_low hn1 _ (by omega)
  have a := ell_lt_mkT hn (t := t) (t' := mkT n s (low t + 1)) (by rw [mm, h.2.1]) (by omega)
  have b := ell_lt_mkT hn (t := mkT n s (low t + 1)) (t' := t') (by rw [mm, h'.2.1]) (by omega)
  rw [h.2.1] at a
  rw [mm] at b
  have c := h.2.2 (mkT n s (low t + 1)) (regular_mkT hn1 _ (by omega) (by omega)) mm
  have c' : |ell t - q| ≤ |ell (mkT n s (low t + 1)) - q| := by
    rcases c with c | c
    · exact c.le
    · exact c.1.le
  generalize ell (mkT n s (low t + 1)) = z at a b c'
  generalize ell t = x at *
  generalize ell t' = y at *
  cases s <;> simp only [sg, Bool.false_eq_true, if_false, if_true, one_mul, neg_mul, neg_lt_neg_iff] at a b <;>
  · rcases abs_cases (x - q) with ⟨e1, _⟩ | ⟨e1, _⟩ <;> rcases abs_cases (y - q) with ⟨e2, _⟩ | ⟨e2, _⟩ <;>
      rcases abs_cases (z - q) with ⟨e3, _⟩ | ⟨e3, _⟩ <;> rw [e1, e2] at g <;> rw [e1, e3] at c' <;> linarith

/-- There is one nearest takum. -/
theorem nearestEll_unique {n : ℕ} {s : Bool} {q : ℚ} {t t' : BitVec n} (hn : 5 ≤ n) (h : NearestEll s q t) (h' : NearestEll s q t') :
    t = t' := by
  rcases h.2.2 t' h'.1 h'.2.1 with g | ⟨g, k⟩
  · rcases h'.2.2 t h.1 h.2.1 with g' | ⟨g', -⟩
    · exact absurd (g.trans g') (lt_irrefl _)
    · rw [g'] at g; exact absurd g (lt_irrefl _)
  · rcases h'.2.2 t h.1 h.2.1 with g' | ⟨-, k'⟩
    · rw [g] at g'; exact absurd g' (lt_irrefl _)
    · rcases k with k | k
      · exact k.symm
      rcases k' with k' | k'
      · exact k'
      have m : t.msb = t'.msb := by rw [h.2.1, h'.2.1]
      rcases lt_trichotomy (low t) (low t') with hl | hl | hl
      · exact (nearestEll_between hn h h' hl k k' g).elim
      · exact ext_low (by omega) m hl
      · exact (nearestEll_between hn h' h hl k' k g.symm).elim

theorem nearestEll_le {n : ℕ} {s : Bool} {q : ℚ} {t : BitVec n} (h : NearestEll s q t) {t' : BitVec n} (r : Regular t') (m : t'.msb = s) :
    |ell t - q| ≤ |ell t' - q| := by
  rcases h.2.2 t' r m with c | c
  · exact c.le
  · exact c.1.le

/-- A position that is a multiple of `2^-(n-4)` is one of the next wider type. -/
theorem wide_takum {v u : W} (h : v.n < u.n) (s : Bool) {q : ℚ} {k : ℤ} (hq : q * 2 ^ (v.n - 4) = k) (h1 : -255 < q) (h2 : q < 255) :
    ∃ t : T u, Regular t ∧ t.msb = s ∧ ell t = q := by
  have h8 := v.n_pos
  have h12 : 12 ≤ u.n ∧ v.n - 4 + 7 ≤ u.n - 5 := by cases v <;> cases u <;> simp_all [W.n]
  have f1 : -255 ≤ ⌊q⌋ := by rw [Int.le_floor]; exact_mod_cast h1.le
  have f2 : ⌊q⌋ < 255 := by rw [Int.floor_lt]; exact_mod_cast h2
  have r8 := (rg_spec f1 f2).1
  obtain ⟨d, hd⟩ : ∃ d : ℕ, u.n - 5 = (v.n - 4) + rg ⌊q⌋ + d := ⟨u.n - 5 - (v.n - 4) - rg ⌊q⌋, by omega⟩
  obtain ⟨t, r, m, e⟩ := takum_exists h12.1 h1 h2 (j := k * 2 ^ d) (by
    rw [hd, pow_add, pow_add]; push_cast; rw [← hq]; ring)
  cases s
  · exact ⟨t, r, m, e⟩
  · obtain ⟨n1, -, n3, n4⟩ := regular_neg (by omega) r
    exact ⟨-t, n3, by rw [n1, m]; rfl, by rw [n4, e]⟩

theorem expand_ell {v u : W} (h : v.n < u.n) {t : T v} (ht : Regular t) :
    ∃ t' : T u, expand v u t = .ok t' ∧ Regular t' ∧ t'.msb = t.msb ∧ ell t' = ell t := by
  have h8 := v.n_pos
  obtain ⟨t', e, hm, hl⟩ := expand_spec h t
  obtain ⟨-, -, c3, c4, c5⟩ := logVal_congr (by omega) (by omega) hm (expand_pos h hl)
  exact ⟨t', e, ⟨fun h => ht.1 (c4.mp h), fun h => ht.2 (c3.mp h)⟩, hm, c5⟩

/-- Rounding a position first to the wider and then to the narrower type is rounding it to the
narrower one. -/
theorem wider_core {v u : W} (h : v.n < u.n) {s : Bool} {q : ℚ} {k : ℤ} (hq : q * 2 ^ (v.n - 4) = k) {tv : T v} {tu : T u}
    (nv : NearestEll s q tv) (nu : NearestEll s q tu) :
    reduce u v tu = .ok tv ∧ (-255 < q → q < 255 → ell tu = q) := by
  have h8 := v.n_pos
  obtain ⟨r, er, nr, -⟩ := narrow_nearest h tu nu.1
  rw [nu.2.1] at nr
  have ex : -255 < q → q < 255 → ell tu = q := fun h1 h2 => by
    obtain ⟨t, rt, mt, et⟩ := wide_takum h s hq h1 h2
    have := nearestEll_le nu rt mt
    rw [et, sub_self, abs_zero] at this
    exact sub_eq_zero.mp (abs_nonpos_iff.mp this)
  refine ⟨?_, ex⟩
  rw [er]; congr 1
  by_cases hr : -255 < q ∧ q < 255
  · rw [ex hr.1 hr.2] at nr
    exact nearestEll_unique (by omega) nr nv
  · obtain ⟨x, -, rx, mx, ex⟩ := expand_ell h nv.1
    obtain ⟨y, -, ry, my, ey⟩ := expand_ell h nr.1
    have a := nearestEll_le nu rx (by rw [mx, nv.2.1])
    have b := nearestEll_le nu ry (by rw [my, nr.2.1])
    have c := nearestEll_le nr nv.1 nv.2.1
    have d := nearestEll_le nv nr.1 nr.2.1
    obtain ⟨l1, l2⟩ := ell_range nu.1
    obtain ⟨l3, l4⟩ := ell_range nr.1
    obtain ⟨l5, l6⟩ := ell_range nv.1
    rw [ex] at a; rw [ey] at b
    refine ell_inj (by omega) (by rw [nr.2.1, nv.2.1]) ?_
    by_cases hh : q < 255
    · have hq2 : q ≤ -255 := not_lt.mp fun h => hr ⟨h, hh⟩
      rw [abs_of_nonneg (by linarith), abs_of_nonneg (by linarith)] at a b d
      rw [abs_of_nonneg (by linarith), abs_of_nonneg (by linarith)] at c
      linarith
    · have hq2 : 255 ≤ q := not_lt.mp hh
      rw [abs_of_nonpos (by linarith), abs_of_nonpos (by linarith)] at a b d
      rw [abs_of_nonpos (by linarith), abs_of_nonpos (by linarith)] at c
      linarith

/-- The multiplication of regular takums whose exact result the intermediate type holds. -/
theorem mul_nearest {w : W} {a b : T w} (ha : Regular a) (hb : Regular b) (hr : w.lF.Rep (ell a + ell b)) :
    ∃ t, multiplication w a b = .ok t ∧ NearestEll (a.msb ^^ b.msb) (ell a + ell b) t := by
  obtain ⟨l, hl, e⟩ := multiplication_regular ha hb
  rw [w.lF.rq_of_rep hr] at hl
  rw [e]
  exact enc_nearest _ hl (lF_rep_encF hr) ((ell_grid a).add (ell_grid b))

theorem logVal_NaR {n : ℕ} : logVal (nar n) = none := by unfold logVal; simp

theorem logVal_ZERO {n : ℕ} (hn : 1 ≤ n) : logVal 0#n = some 0 := by
  have : 0#n ≠ nar n := fun e => by
    have := congrArg BitVec.msb e
    rw [nar_eq, mkT_msb hn _ (by positivity)] at this; simp at this
  unfold logVal; simp [this]

theorem lF_wider {v u : W} (h : v.n < u.n) {q : ℚ} (hq : v.lF.Rep q) : u.lF.Rep q := by
  cases v <;> cases u <;> first | (exact hq.mono (by decide) (by decide)) | (exact absurd h (by decide))

/-- Products of regular takums and of wider takums with the same numbers. -/
theorem mul_wider_reg {v u : W} (h : v.n < u.n) {a b : T v} (ha : Regular a) (hb : Regular b) {a' b' : T u} (ha' : Regular a')
    (hb' : Regular b') (ma : a'.msb = a.msb) (mb : b'.msb = b.msb) (ea : ell a' = ell a) (eb : ell b' = ell b) :
    ∃ c : T u, multiplication u a' b' = .ok c ∧ Regular c ∧ reduce u v c = multiplication v a b ∧ c.msb = (a.msb ^^ b.msb) ∧
      (-255 < ell a + ell b → ell a + ell b < 255 → ell c = ell a + ell b) := by
  have h8 := v.n_pos
  have hr := ell_add_rep a b (Or.inl (by rintro rfl; cases u <;> simp [W.n] at h))
  obtain ⟨t, et, nt⟩ := mul_nearest ha hb hr
  obtain ⟨c, ec, nc⟩ := mul_nearest ha' hb' (by rw [ea, eb]; exact lF_wider h hr)
  rw [ma, mb, ea, eb] at nc
  obtain ⟨i, hi⟩ := ell_multiple_n a
  obtain ⟨j, hj⟩ := ell_multiple_n b
  obtain ⟨e1, e2⟩ := wider_core h (q := ell a + ell b) (k := 2 * (i + j)) (by
    rw [show v.n - 4 = v.n - 5 + 1 by omega, pow_succ]; push_cast; rw [← hi, ← hj]; ring) nt nc
  exact ⟨c, ec, nc.1, by rw [e1, et], nc.2.1, e2⟩

theorem logScale_in {s : Bool} {q : ℚ} (h1 : Real.exp (-255 / 2) < |((sg s : ℚ) : ℝ) * logG q|)
    (h2 : |((sg s : ℚ) : ℝ) * logG q| < Real.exp (255 / 2)) : -255 < q ∧ q < 255 := by
  have e : |((sg s : ℚ) : ℝ) * logG q| = Real.exp (q / 2) := by
    rw [abs_mul, abs_of_pos (logG_pos q), logG_exp]; cases s <;> simp [sg]
  rw [e, Real.exp_lt_exp] at h1 h2
  constructor
  · have : (-255 : ℝ) < q := by linarith
    exact_mod_cast this
  · have : (q : ℝ) < 255 := by linarith
    exact_mod_cast this

/-- C114: a product computed in a wider type and narrowed is the product of the narrow type, for every
pair of bit patterns; before narrowing it is exact if it is within the range of the format. -/
theorem log_multiplication_wider {v u : W} (h : v.n < u.n) (a b : T v) :
    ∃ a' b' c : T u, expand v u a = .ok a' ∧ expand v u b = .ok b' ∧ multiplication u a' b' = .ok c ∧
      reduce u v c = multiplication v a b ∧
      ∀ x y : ℝ, logVal a = some x → logVal b = some y → Real.exp (-255 / 2) < |x * y| → |x * y| < Real.exp (255 / 2) →
        logVal c = some (x * y) := by
  have h8 := v.n_pos
  have hv1 : 1 ≤ v.n := by omega
  have hu1 : 1 ≤ u.n := by omega
  obtain ⟨a', ea, -, -, na, za⟩ := widen_exact h a
  obtain ⟨b', eb, -, -, nb, zb⟩ := widen_exact h b
  refine ⟨a', b', ?_⟩
  by_cases hna : a = nar v.n
  · refine ⟨nar u.n, ea, eb, by rw [na.mpr hna, multiplication_comm', multiplication_nar], ?_, ?_⟩
    · rw [hna, multiplication_comm', multiplication_nar, reduce_nar h]
    · intro x y hx; rw [hna, logVal_NaR] at hx; cases hx
  by_cases hnb : b = nar v.n
  · refine ⟨nar u.n, ea, eb, by rw [nb.mpr hnb, multiplication_nar], ?_, ?_⟩
    · rw [hnb, multiplication_nar, reduce_nar h]
    · intro x y _ hy; rw [hnb, logVal_NaR] at hy; cases hy
  have low0 : ∀ x y : ℝ, x * y = 0 → Real.exp (-255 / 2) < |x * y| → False := fun x y e hc => by
    rw [e, abs_zero] at hc; exact absurd (Real.exp_pos _) (not_lt.mpr hc.le)
  by_cases hza : a = 0#v.n
  · refine ⟨0#u.n, ea, eb, by rw [za.mpr hza, multiplication_comm', multiplication_zero (fun e => hnb (nb.mp e))], ?_, ?_⟩
    · rw [hza, multiplication_comm', multiplication_zero hnb, reduce_zero h]
    · intro x y hx _ hc
      rw [hza, logVal_ZERO hv1] at hx
      exact (low0 x y (by rw [← Option.some.inj hx, zero_mul]) hc).elim
  by_cases hzb : b = 0#v.n
  · refine ⟨0#u.n, ea, eb, by rw [zb.mpr hzb, multiplication_zero (fun e => hna (na.mp e))], ?_, ?_⟩
    · rw [hzb, multiplication_zero hna, reduce_zero h]
    · intro x y _ hy hc
      rw [hzb, logVal_ZERO hv1] at hy
      exact (low0 x y (by rw [← Option.some.inj hy, mul_zero]) hc).elim
  have ra : Regular a := ⟨hza, hna⟩
  have rb : Regular b := ⟨hzb, hnb⟩
  obtain ⟨a'', ea', ra', ma, la⟩ := expand_ell h ra
  obtain ⟨b'', eb', rb', mb, lb⟩ := expand_ell h rb
  obtain rfl : a' = a'' := Except.ok.inj (ea.symm.trans ea')
  obtain rfl : b' = b'' := Except.ok.inj (eb.symm.trans eb')
  obtain ⟨c, ec, rc, er, mc, lc⟩ := mul_wider_reg h ra rb ra' rb' ma mb la lb
  refine ⟨c, ea, eb, ec, er, ?_⟩
  intro x y hx hy h1 h2
  obtain ⟨x', y', hx', hy', hxy⟩ := logVal_mul ra rb
  rw [hx] at hx'; rw [hy] at hy'
  obtain rfl := Option.some.inj hx'
  obtain rfl := Option.some.inj hy'
  rw [hxy] at h1 h2
  obtain ⟨q1, q2⟩ := logScale_in h1 h2
  rw [logVal_regular hu1 rc, mc, lc q1 q2, hxy]

/-- A product that 8 bits do not hold: rounded to 8 bits directly and by way of 16 bits. -/
example : multiplication .w8 0x5b#8 0x45#8 = .ok 0x5c#8 ∧ expand .w8 .w16 0x5b#8 = .ok 0x5b00#16 ∧
    expand .w8 .w16 0x45#8 = .ok 0x4500#16 ∧ multiplication .w16 0x5b00#16 0x4500#16 = .ok 0x5ba0#16 ∧
    reduce .w16 .w8 0x5ba0#16 = .ok 0x5c#8 := by
  decide +kernel

/-- C114: the same for quotients. -/
theorem log_division_wider {v u : W} (h : v.n < u.n) (a b : T v) :
    ∃ a' b' c : T u, expand v u a = .ok a' ∧ expand v u b = .ok b' ∧ division u a' b' = .ok c ∧
      reduce u v c = division v a b ∧
      ∀ x y : ℝ, logVal a = some x → logVal b = some y → Real.exp (-255 / 2) < |x / y| → |x / y| < Real.exp (255 / 2) →
        logVal c = some (x / y) := by
  have h8 := v.n_pos
  have hv1 : 1 ≤ v.n := by omega
  have inv : ∀ b' : T u, expand v u b = .ok b' → expand v u (inversion v b) = .ok (inversion u b') := fun b' e => by
    obtain ⟨b1, e1, -, -, n1, z1⟩ := widen_exact h b
    obtain rfl : b1 = b' := Except.ok.inj (e1.symm.trans e)
    obtain ⟨i1, f1, -, -, n2, z2⟩ := widen_exact h (inversion v b)
    rw [f1]; congr 1
    by_cases hn : b = nar v.n
    · rw [n1.mpr hn, inversion_nar, n2, hn, inversion_nar]
    by_cases hz : b = 0#v.n
    · rw [z1.mpr hz, inversion_zero, n2, hz, inversion_zero]
    have rb : Regular b := ⟨hz, hn⟩
    obtain ⟨b2, eb2, rb2, mb2, lb2⟩ := expand_ell h rb
    obtain rfl : b1 = b2 := Except.ok.inj (e.symm.trans eb2)
    obtain ⟨j1, -, j3, j4⟩ := inversion_facts rb
    obtain ⟨k1, -, k3, k4⟩ := inversion_facts rb2
    obtain ⟨i2, ei2, ri2, mi2, li2⟩ := expand_ell h j3
    obtain rfl : i1 = i2 := Except.ok.inj (f1.symm.trans ei2)
    exact ell_inj (by omega) (by rw [mi2, j1, k1, mb2]) (by rw [li2, j4, k4, lb2])
  obtain ⟨a', i', c, ea, ei, ec, er, hv⟩ := log_multiplication_wider h a (inversion v b)
  obtain ⟨b', eb, -, -, -, -⟩ := widen_exact h b
  obtain rfl : i' = inversion u b' := Except.ok.inj (ei.symm.trans (inv b' eb))
  refine ⟨a', b', c, ea, eb, by rw [division_eq, ec], by rw [division_eq, er], ?_⟩
  intro x y hx hy h1 h2
  by_cases hz : b = 0#v.n
  · rw [hz, logVal_ZERO hv1] at hy
    rw [← Option.some.inj hy, div_zero, abs_zero] at h1
    exact absurd (Real.exp_pos _) (not_lt.mpr h1.le)
  have rb : Regular b := ⟨hz, fun e => by rw [e, logVal_NaR] at hy; cases hy⟩
  obtain ⟨⟨y', z, hy', hz', hyz⟩, -⟩ := inversion_exact b rb
  rw [hy] at hy'
  obtain rfl := Option.some.inj hy'
  have e : x / y = x * z := by
    have : y ≠ 0 := fun e => by rw [e] at hyz; simp at hyz
    field_simp; rw [mul_assoc, hyz, mul_one]
  rw [e] at h1 h2 ⊢
  exact hv x z hx hz' h1 h2

example : Real.exp (-255 / 2) < |(1 : ℝ) / 1| ∧ |(1 : ℝ) / 1| < Real.exp (255 / 2) := by
  constructor
  · rw [div_one, abs_one, Real.exp_lt_one_iff]; norm_num
  · rw [div_one, abs_one, Real.one_lt_exp_iff]; norm_num

/-- C114: the same for square roots, which are always exact in the wider type. -/
theorem log_squareRoot_wider {v u : W} (h : v.n < u.n) (a : T v) :
    ∃ a' c : T u, expand v u a = .ok a' ∧ squareRoot u a' = .ok c ∧ reduce u v c = squareRoot v a ∧
      ∀ x : ℝ, logVal a = some x → 0 ≤ x → logVal c = some (Real.sqrt x) := by
  have h8 := v.n_pos
  have hv1 : 1 ≤ v.n := by omega
  have hu1 : 1 ≤ u.n := by omega
  obtain ⟨a', ea, ma, -⟩ := expand_spec h a
  obtain ⟨a1, ea1, va, -, na, za⟩ := widen_exact h a
  obtain rfl : a' = a1 := Except.ok.inj (ea.symm.trans ea1)
  refine ⟨a', ?_⟩
  rcases squareRoot_cases v a with ⟨m, e⟩ | ⟨z, e⟩ | ⟨r, m, tv, e, nv⟩
  · rcases squareRoot_cases u a' with ⟨m', e'⟩ | ⟨z', e'⟩ | ⟨r', m', -⟩
    · refine ⟨nar u.n, ea, e', by rw [e, reduce_nar h], ?_⟩
      intro x hx x0
      by_cases hn : a = nar v.n
      · rw [hn, logVal_NaR] at hx; cases hx
      have r : Regular a := ⟨fun e => by rw [e] at m; simp at m, hn⟩
      rw [logVal_regular hv1 r, m] at hx
      have := Option.some.inj hx
      have p := logG_pos (ell a)
      simp only [sg, if_true] at this
      push_cast at this; linarith
    · rw [za.mp z'] at m; simp at m
    · rw [ma, m] at m'; cases m'
  · rcases squareRoot_cases u a' with ⟨m', e'⟩ | ⟨z', e'⟩ | ⟨r', m', -⟩
    · rw [ma, z] at m'; simp at m'
    · refine ⟨0#u.n, ea, e', by rw [e, reduce_zero h], ?_⟩
      intro x hx _
      rw [z, logVal_ZERO hv1] at hx
      rw [logVal_ZERO hu1, ← Option.some.inj hx, Real.sqrt_zero]
    · exact absurd (za.mpr z) r'.1
  · rcases squareRoot_cases u a' with ⟨m', e'⟩ | ⟨z', e'⟩ | ⟨r', m', c, e', nc⟩
    · rw [ma, m] at m'; cases m'
    · exact absurd (za.mp z') r.1
    obtain ⟨a2, ea2, -, -, la⟩ := expand_ell h r
    obtain rfl : a' = a2 := Except.ok.inj (ea.symm.trans ea2)
    rw [la] at nc
    obtain ⟨i, hi⟩ := ell_multiple_n a
    obtain ⟨e1, e2⟩ := wider_core h (q := ell a / 2) (k := i) (by
      rw [show v.n - 4 = v.n - 5 + 1 by omega, pow_succ]; rw [← hi]; ring) nv nc
    refine ⟨c, ea, e', by rw [e1, e], ?_⟩
    intro x hx _
    obtain ⟨l1, l2⟩ := ell_range r
    rw [logVal_regular hv1 r, m] at hx
    have hx := Option.some.inj hx
    rw [logVal_regular hu1 nc.1, nc.2.1, e2 (by linarith) (by linarith), ← hx]
    simp only [sg, Bool.false_eq_true, if_false]
    push_cast
    rw [one_mul, one_mul, logG_exp, logG_exp, Real.exp_half]
    push_cast
    rfl

/-- A square root that 8 bits do not hold: rounded to 8 bits directly and by way of 16 bits. -/
example : squareRoot .w8 0x43#8 = .ok 0x42#8 ∧ expand .w8 .w16 0x43#8 = .ok 0x4300#16 ∧
    squareRoot .w16 0x4300#16 = .ok 0x4180#16 ∧ reduce .w16 .w8 0x4180#16 = .ok 0x42#8 := by
  decide +kernel

end Takum
