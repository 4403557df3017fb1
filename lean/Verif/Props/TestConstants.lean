import Verif.Lemmas.TestConstants
import Verif.Props.Constants
import Verif.Lemmas.TestBlocks

/-!
# C88: the test of the constants
-/

namespace Takum.Test
open Takum Spec

/-- The `long double` logarithm is correctly rounded. -/
def RoundedLog (L : Libm) : Prop :=
  ∀ q : ℚ, 0 < q → x80.In q → Fl.Is (L.log x80 (.num q)) (x80.rq (Real.log q))

theorem lit_facts (c : Const) : 0 < litX c ∧ x80.In (litX c) ∧ (rowA c : ℝ) ≤ Real.log (litX c) ∧
    Real.log (litX c) ≤ rowB c ∧ |rowA c| ≤ 4 ∧ |rowB c| ≤ 4 := by
  obtain ⟨a1, a2, a3, a4, a5, a6⟩ := of_decide_eq_true (row_ok c)
  have hp : (0 : ℝ) < litX c := by exact_mod_cast a5
  refine ⟨a5, ⟨x80.rq_rep (by decide) _, ?_⟩, ?_, ?_, a1, a2⟩
  · rw [abs_of_pos a5]
    exact lt_of_le_of_lt a6 (by decide +kernel)
  · rw [Real.le_log_iff_exp_le hp]
    exact (exp_iv a1).2.trans (by exact_mod_cast a3)
  · rw [Real.log_le_iff_le_exp hp]
    exact le_trans (by exact_mod_cast a4) (exp_iv a2).1

theorem enc_between {c : Const} {w : W} {l : Fl} {lo hi r : ℚ} (h1 : encIs c w lo = true) (h2 : encIs c w hi = true)
    (hl : l.Is (2 * r)) (e1 : x80.Rep (2 * r)) (e2 : x80.Rep (2 * lo)) (e3 : x80.Rep (2 * hi)) (n1 : lo ≠ 0) (n2 : hi ≠ 0)
    (b1 : lo ≤ r) (b2 : r ≤ hi) (b3 : |lo| ≤ 2 ^ 100) (b4 : |hi| ≤ 2 ^ 100) :
    logEnc .ext w false l = .ok (c.takum .log w) := by
  rw [encIs_iff] at h1 h2
  have b : ∀ {r : ℚ}, |r| ≤ 2 ^ 100 → |2 * r| ≤ 2 ^ 101 := by
    intro r h; rw [abs_mul, abs_two]; linarith [show (2 : ℚ) ^ 101 = 2 * 2 ^ 100 by norm_num]
  have b5 : |r| ≤ 2 ^ 100 := abs_le.mpr ⟨by linarith [(abs_le.mp b3).1], by linarith [(abs_le.mp b4).2]⟩
  have hF : logF .ext w = x80 := by cases w <;> rfl
  obtain ⟨t, t', f1, f2, f3⟩ := logEnc_mono .ext w false (Fl.Is.num (by simpa using n1)) hl (hF ▸ e2) (hF ▸ e1) (b b3) (b b5)
    (by simpa [sg] using b1)
  obtain ⟨s, s', g1, g2, g3⟩ := logEnc_mono .ext w false hl (Fl.Is.num (by simpa using n2)) (hF ▸ e1) (hF ▸ e3) (b b5) (b b4)
    (by simpa [sg] using b2)
  rw [h1] at f1
  rw [h2] at g2
  rw [f2] at g1
  obtain rfl := Except.ok.inj f1
  obtain rfl := Except.ok.inj g2
  obtain rfl := Except.ok.inj g1
  rw [f2]
  congr 1
  exact BitVec.toInt_inj.mp (by omega)

theorem from_lit {L : Libm} (c : Const) (w : W) {r : ℚ} (hr : Fl.Is (L.log x80 (.num (litX c))) r) (hi : x80.In r)
    (hb : |r| ≤ 2 ^ 100) : ∃ l : Fl, l.Is (2 * r) ∧ x80.In (2 * r) ∧
      fromExtended L w (.num (litX c)) = logEnc .ext w false l := by
  obtain ⟨p, -⟩ := lit_facts c
  have hx : (Fl.num (litX c)).Is (litX c) := Fl.Is.num p.ne'
  have hF : logF .ext w = x80 := by cases w <;> rfl
  obtain ⟨a, b⟩ := twoLog_is (Or.inr rfl) hx p.ne' (by rwa [abs_of_pos p]) hi hb
  refine ⟨_, a, b, ?_⟩
  have := logFrom_eq L .ext w hx p.ne'
  rw [hF, decide_eq_false (not_lt.mpr p.le)] at this
  exact this

/-- The entries "1". -/
theorem one_passes {L : Libm} (h : Fl.Is (L.log x80 (.num 1)) 0) (w : W) : fromExtended L w (.num 1) = .ok (ONE w) := by
  have hx : (Fl.num 1).Is 1 := Fl.Is.num (by norm_num)
  have hF : logF .ext w = x80 := by cases w <;> rfl
  obtain ⟨a, -⟩ := twoLog_is (L := L) (F := x80) (Or.inr rfl) hx (by norm_num) (by simpa using h)
    ⟨Fmt.Rep.zero _, by norm_num; positivity⟩ (by norm_num)
  have := logFrom_eq L .ext w hx (by norm_num)
  rw [hF, decide_eq_false (by norm_num)] at this
  refine this.trans ?_
  rw [mul_zero] at a
  rcases a.cases with ⟨h, -⟩ | ⟨-, s, e⟩
  · exact absurd rfl h
  rw [e]
  cases s <;> cases w <;> decide +kernel

/-- C88, the logarithmic types: the constant is what the conversion gives if the logarithm is correctly
rounded. -/
theorem constant_rounded {L : Libm} (hL : RoundedLog L) (c : Option Const) (w : W) :
    fromExtended L w (.num (x80.rq (constantValue c))) = .ok (expectedConstant c .log w) := by
  rcases c with _ | c
  · have : x80.rq (constantValue none) = 1 := by decide +kernel
    rw [this]
    refine one_passes ?_ w
    have := hL 1 (by norm_num) (one_in (by simp))
    simpa using this
  · obtain ⟨p, i, a, b, a4, b4⟩ := lit_facts c
    obtain ⟨k1, k2⟩ := rnd_ok c w
    have m1 : x80.rq (rowA c) ≤ x80.rq (Real.log (litX c)) := by
      rw [← Fmt.rq_cast x80 (rowA c)]; exact x80.rq_mono (by decide) a
    have m2 : x80.rq (Real.log (litX c)) ≤ x80.rq (rowB c) := by
      rw [← Fmt.rq_cast x80 (rowB c)]; exact x80.rq_mono (by decide) b
    have n4 : ∀ {q : ℚ}, |q| ≤ 4 → |q| ≤ 2 ^ 2 := fun h => by linarith
    obtain ⟨a5, a6⟩ := rq_pow (F := x80) (Or.inr rfl) (by norm_num) (n4 a4)
    obtain ⟨b5, b6⟩ := rq_pow (F := x80) (Or.inr rfl) (by norm_num) (n4 b4)
    have big : ∀ {q : ℚ}, |q| ≤ 2 ^ 2 → |q| ≤ 2 ^ 100 := fun h => h.trans (by norm_num)
    have hr : |x80.rq (Real.log (litX c))| ≤ 2 ^ 2 :=
      abs_le.mpr ⟨by linarith [(abs_le.mp a5).1], by linarith [(abs_le.mp b5).2]⟩
    have hi : x80.In (x80.rq (Real.log (litX c))) :=
      ⟨x80.rq_real_rep (by decide) _, lt_of_le_of_lt hr (by decide +kernel)⟩
    obtain ⟨l, e1, e2, e3⟩ := from_lit c w (hL _ p i) hi (big hr)
    refine e3.trans (enc_between k1 k2 e1 e2.1 (In_two (Or.inr rfl) a6 (big a5)).1 (In_two (Or.inr rfl) b6 (big b5)).1
      (rnd_ne c).1 (rnd_ne c).2 m1 m2 (big a5) (big b5))

/-- C88, the logarithmic types with a library accurate to two units. -/
theorem constant_accurate {L : Libm} (hL : L.Accurate) (c : Option Const) (w : W)
    (h : ¬(w = .w64 ∧ ∃ d ∈ doubtful, c = some d)) :
    fromExtended L w (.num (x80.rq (constantValue c))) = .ok (expectedConstant c .log w) := by
  rcases c with _ | c
  · have : x80.rq (constantValue none) = 1 := by decide +kernel
    rw [this]
    refine one_passes ?_ w
    obtain ⟨r, h1, -, h3⟩ := hL.log x80 (Or.inr rfl) 1 (by norm_num) (one_in (by simp))
    have : (r : ℝ) = 0 := by
      have h3' : |(r : ℝ)| ≤ 0 := by simpa using h3
      exact abs_nonpos_iff.mp h3'
    have : r = 0 := by exact_mod_cast this
    rwa [this] at h1
  · obtain ⟨p, i, a, b, a4, b4⟩ := lit_facts c
    obtain ⟨k1, k2⟩ := acc_ok c w (fun h' => h ⟨h'.1, c, h'.2, rfl⟩)
    obtain ⟨g1, g2, g3, g4, g5, g6, g7, g8⟩ := of_decide_eq_true (grid_ok c)
    obtain ⟨r, h1, h2, h3⟩ := hL.log x80 (Or.inr rfl) _ p i
    have hm : |Real.log (litX c)| ≤ (max |rowA c| |rowB c| : ℚ) := by
      push_cast
      exact abs_le_max_abs_abs a b
    have h4 : |(r : ℝ) - Real.log (litX c)| ≤ (rowE c : ℚ) := by
      refine h3.trans ?_
      unfold rowE
      rw [Rat.cast_mul]
      have : (4 : ℝ) / 2 ^ x80.prec = ((4 / 2 ^ 64 : ℚ) : ℝ) := by
        rw [show x80.prec = 64 from rfl]; norm_num
      rw [this]
      gcongr
    obtain ⟨h5, h6⟩ := abs_le.mp h4
    have lo : rowA c - rowE c ≤ r := by
      have : ((rowA c - rowE c : ℚ) : ℝ) ≤ r := by push_cast; linarith
      exact_mod_cast this
    have hi : r ≤ rowB c + rowE c := by
      have : (r : ℝ) ≤ ((rowB c + rowE c : ℚ) : ℝ) := by push_cast; linarith
      exact_mod_cast this
    obtain ⟨k, rfl⟩ := grid (g := (logRow c).2.1) h2.1 (by
      rcases g1 with g1 | g1
      · exact (g1.trans lo).trans (le_abs_self _)
      · exact le_trans (by linarith) (neg_le_abs _))
    have hg : (0 : ℚ) < 2 ^ (logRow c).2.1 := by positivity
    have q1 : (logRow c).2.2.1 ≤ k := by
      have := lt_of_lt_of_le g3 lo
      unfold rowK at this
      rw [div_lt_div_iff_of_pos_right hg] at this
      have : (logRow c).2.2.1 - 1 < k := by exact_mod_cast this
      omega
    have q2 : k ≤ (logRow c).2.2.2 := by
      have := lt_of_le_of_lt hi g4
      unfold rowK at this
      rw [div_lt_div_iff_of_pos_right hg] at this
      have : k < (logRow c).2.2.2 + 1 := by exact_mod_cast this
      omega
    have bd : ∀ {j : ℤ}, |j| < 2 ^ 64 → |(j : ℚ) / 2 ^ (logRow c).2.1| ≤ 2 ^ 100 := by
      intro j hj
      have : |(j : ℚ)| < 2 ^ 64 := by exact_mod_cast hj
      rw [abs_div, abs_of_pos hg]
      refine (div_le_self (abs_nonneg _) (one_le_pow₀ (by norm_num))).trans ?_
      exact this.le.trans (by norm_num)
    have hk : |k| < 2 ^ 64 := abs_lt.mpr ⟨by linarith [(abs_lt.mp g5).1], by linarith [(abs_lt.mp g6).2]⟩
    obtain ⟨l, e1, e2, e3⟩ := from_lit c w h1 h2 (bd hk)
    refine e3.trans (enc_between k1 k2 e1 e2.1 (grid_rep g2 g5).1 (grid_rep g2 g6).1 ?_ ?_ ?_ ?_ (bd g5) (bd g6))
    · exact div_ne_zero (by exact_mod_cast g7) hg.ne'
    · exact div_ne_zero (by exact_mod_cast g8) hg.ne'
    · unfold rowK; rw [div_le_div_iff_of_pos_right hg]; exact_mod_cast q1
    · unfold rowK; rw [div_le_div_iff_of_pos_right hg]; exact_mod_cast q2

theorem ideal_roundedLog : RoundedLog ideal := by
  intro q h0 h
  have e : ideal.log x80 (.num q) = rnd x80 (Real.log q) := by
    show idealLog Real.log x80 (.num q) = _
    unfold idealLog; simp only; rw [if_neg (not_lt.mpr h0.le)]
  rw [e]
  exact (rnd_bounded (Or.inr rfl) (r := Real.log q) ((log_in_bound (Or.inr rfl) h0 h).trans (by norm_num))).1

/-! ## The program -/

/-- The eight types. -/
def eight : List (Kind × W) :=
  [(.log, .w8), (.log, .w16), (.log, .w32), (.log, .w64), (.lin, .w8), (.lin, .w16), (.lin, .w32), (.lin, .w64)]

theorem foldlM_sum {α : Type} {f : ℕ → α → C ℕ} {g : α → ℕ} {l : List α} (h : ∀ a ∈ l, ∀ n, f n a = .ok (n + g a)) (n : ℕ) :
    l.foldlM f n = .ok (n + (l.map g).sum) := by
  induction l generalizing n with
  | nil => rfl
  | cons a l ih =>
    rw [List.foldlM_cons, h a (by simp)]
    refine (ih (fun b hb => h b (by simp [hb])) _).trans ?_
    rw [List.map_cons, List.sum_cons, Nat.add_assoc]

/-- The program returns the number of comparisons that fail. -/
theorem main_sum {L : Libm} {g : Option Const → Kind × W → ℕ} (h : ∀ c p, constantFails L c p = .ok (g c p)) :
    constantsMain L = .ok (constantTests.map fun c => (eight.map (g c)).sum).sum := by
  have := foldlM_sum (f := fun n c => eight.foldlM (fun n p => do return n + (← constantFails L c p)) n)
    (g := fun c => (eight.map (g c)).sum) (l := constantTests)
    (fun c _ n => foldlM_sum (fun p _ n => by rw [h]; rfl) n) 0
  rw [Nat.zero_add] at this
  exact this

/-- A comparison fails exactly if the conversion of the literal is not the constant. -/
theorem fails_eq {L : Libm} {c : Option Const} {p : Kind × W} {t : T p.2}
    (h : fromExt L p.1 p.2 (.num (x80.rq (constantValue c))) = .ok t) :
    constantFails L c p = .ok (if expectedConstant c p.1 p.2 = t then 0 else 1) := by
  unfold constantFails
  obtain ⟨k, w⟩ := p
  cases k <;> simp only
  · rw [show fromExtended L w (.num (x80.rq (constantValue c))) = .ok t from h]; rfl
  · rw [show linFromExtended w (.num (x80.rq (constantValue c))) = .ok t from h]; rfl

theorem lin_passes (L : Libm) (c : Option Const) (w : W) : constantFails L c (.lin, w) = .ok 0 := by
  rw [fails_eq (p := (.lin, w)) (lin_ok c w), if_pos rfl]

/-- C88. The test of the constants passes if the `long double` logarithm is correctly rounded. -/
theorem constants_pass {L : Libm} (hL : RoundedLog L) : constantsMain L = .ok 0 := by
  have := main_sum (L := L) (g := fun _ _ => 0) (by
    rintro c ⟨k, w⟩
    cases k
    · rw [fails_eq (p := (.log, w)) (constant_rounded hL c w), if_pos rfl]
    · exact lin_passes L c w)
  rw [this]
  decide

/-- C88. With a logarithm accurate to two units at most the seven comparisons of `doubtful` fail. -/
theorem constants_accurate {L : Libm} (hL : L.Accurate) :
    (∀ c k w, ¬(k = .log ∧ w = .w64 ∧ ∃ d ∈ doubtful, c = some d) → constantFails L c (k, w) = .ok 0) ∧
    ∃ n ≤ 7, constantsMain L = .ok n := by
  have h1 : ∀ c k w, ¬(k = .log ∧ w = .w64 ∧ ∃ d ∈ doubtful, c = some d) → constantFails L c (k, w) = .ok 0 := by
    intro c k w h
    cases k
    · rw [fails_eq (p := (.log, w)) (constant_accurate hL c w fun h' => h ⟨rfl, h'⟩), if_pos rfl]
    · exact lin_passes L c w
  refine ⟨h1, ?_⟩
  have ex : ∀ c p, ∃ n, constantFails L c p = .ok n ∧
      n ≤ if (p = (.log, .w64) ∧ ∃ d ∈ doubtful, c = some d) then 1 else 0 := by
    rintro c ⟨k, w⟩
    by_cases h : k = .log ∧ w = .w64 ∧ ∃ d ∈ doubtful, c = some d
    · obtain ⟨t, ht⟩ := fromExt_ok L k w (.num (x80.rq (constantValue c)))
      refine ⟨_, fails_eq (p := (k, w)) ht, ?_⟩
      rw [if_pos (show (k, w) = (Kind.log, W.w64) ∧ _ from ⟨by rw [h.1, h.2.1], h.2.2⟩)]
      split_ifs <;> omega
    · exact ⟨0, h1 c k w h, Nat.zero_le _⟩
  choose g hg hle using ex
  refine ⟨_, ?_, main_sum hg⟩
  calc (constantTests.map fun c => (eight.map (g c)).sum).sum
      ≤ (constantTests.map fun c => (eight.map fun p =>
          if (p = (.log, .w64) ∧ ∃ d ∈ doubtful, c = some d) then 1 else 0).sum).sum :=
        List.sum_le_sum fun c _ => List.sum_le_sum fun p _ => hle c p
    _ = 7 := by decide

/-! ## An accurate library for which the test fails -/

/-- Values near the logarithms of the literals. -/
def skew : Const → ℚ
  | .pi6 => 13542166902071557366 / 2 ^ 62
  | .pi6_5 => 12239889167544508054 / 2 ^ 63
  | .lb_10 => 11073076556168505351 / 2 ^ 63
  | .lg_2 => -11073076556168505351 / 2 ^ 63
  | .lg_e => -15385183066659214738 / 2 ^ 64
  | .ln_10 => 15385183066659214738 / 2 ^ 64
  | .sqrt6 => 16526064185247797646 / 2 ^ 64
  | _ => 0

/-- The ideal library but for the logarithms of seven `long double` numbers. -/
noncomputable def skewed : Libm :=
  { ideal with
    log := fun F x => match x with
      | .num q => if F.prec = 64 then
          match doubtful.find? (fun d => decide (q = litX d)) with
          | some d => .num (skew d)
          | none => ideal.log F x
        else ideal.log F x
      | x => ideal.log F x }

theorem skew_ok : ∀ d ∈ doubtful, (rowA d > 0 ∨ rowB d < 0) ∧ skew d ≠ 0 ∧
    skew d - rowA d ≤ 4 / 2 ^ 64 * min |rowA d| |rowB d| ∧ rowB d - skew d ≤ 4 / 2 ^ 64 * min |rowA d| |rowB d| ∧
    encIs d .w64 (skew d) = false := by
  decide +kernel

theorem skew_in : ∀ d ∈ doubtful, x80.In (skew d) := by
  have h : ∀ d ∈ doubtful, x80.rq (skew d) = skew d ∧ |skew d| < 2 ^ x80.emax := by decide +kernel
  exact fun d hd => ⟨(h d hd).1 ▸ x80.rq_rep (by decide) _, (h d hd).2⟩

theorem skewed_accurate : skewed.Accurate where
  pow := ideal_accurate.pow
  log := by
    intro F hF q hq hi
    have key : (skewed.log F (.num q) = ideal.log F (.num q)) ∨ (F = x80 ∧ ∃ d ∈ doubtful, q = litX d ∧
        skewed.log F (.num q) = .num (skew d)) := by
      show ((if F.prec = 64 then _ else _) = _) ∨ (_ ∧ ∃ d ∈ doubtful, _ ∧ (if F.prec = 64 then _ else _) = _)
      rcases hF with rfl | rfl
      · left; rw [if_neg (by decide)]
      · rw [if_pos (by decide)]
        cases hd : doubtful.find? (fun d => decide (q = litX d)) with
        | none => exact .inl rfl
        | some d => exact .inr ⟨rfl, d, List.mem_of_find?_eq_some hd, of_decide_eq_true (by simpa using List.find?_some hd), rfl⟩
    rcases key with e | ⟨rfl, d, hd, rfl, e⟩
    · rw [e]; exact ideal_accurate.log F hF q hq hi
    · obtain ⟨h1, h2, h3, h4, -⟩ := skew_ok d hd
      obtain ⟨p, i, a, b, -⟩ := lit_facts d
      rw [e]
      refine ⟨skew d, Fl.Is.num h2, skew_in d hd, ?_⟩
      have hm : ((min |rowA d| |rowB d| : ℚ) : ℝ) ≤ |Real.log (litX d)| := by
        push_cast
        rcases h1 with h1 | h1
        · have h1' : (0 : ℝ) < rowA d := by exact_mod_cast h1
          rw [abs_of_pos (h1'.trans_le a), abs_of_pos h1']
          exact (min_le_left _ _).trans a
        · have h1' : (rowB d : ℝ) < 0 := by exact_mod_cast h1
          rw [abs_of_neg (lt_of_le_of_lt b h1'), abs_of_neg h1']
          exact (min_le_right _ _).trans (by linarith)
      have h3' : ((skew d - rowA d : ℚ) : ℝ) ≤ ((4 / 2 ^ 64 * min |rowA d| |rowB d| : ℚ) : ℝ) := by exact_mod_cast h3
      have h4' : ((rowB d - skew d : ℚ) : ℝ) ≤ ((4 / 2 ^ 64 * min |rowA d| |rowB d| : ℚ) : ℝ) := by exact_mod_cast h4
      rw [Rat.cast_mul] at h3' h4'
      have e4 : ((4 / 2 ^ 64 : ℚ) : ℝ) = 4 / 2 ^ x80.prec := by
        rw [show x80.prec = 64 from rfl]; norm_num
      rw [e4] at h3' h4'
      have h5 : (4 : ℝ) / 2 ^ x80.prec * ((min |rowA d| |rowB d| : ℚ) : ℝ) ≤ 4 / 2 ^ x80.prec * |Real.log (litX d)| := by
        gcongr
      rw [Rat.cast_sub] at h3' h4'
      rw [abs_le]
      constructor <;> linarith

/-- C88. The test depends on the last bits of `logl`: there is a library accurate to two units for which it
reports seven wrong constants. -/
theorem constants_accurate_refuted : ∃ L : Libm, L.Accurate ∧ constantsMain L = .ok 7 := by
  refine ⟨skewed, skewed_accurate, ?_⟩
  have h1 := (constants_accurate skewed_accurate).1
  have := main_sum (L := skewed) (g := fun c p => if (p = (.log, .w64) ∧ ∃ d ∈ doubtful, c = some d) then 1 else 0) (by
    rintro c ⟨k, w⟩
    by_cases h : k = .log ∧ w = .w64 ∧ ∃ d ∈ doubtful, c = some d
    · obtain ⟨rfl, rfl, d, hd, rfl⟩ := h
      rw [if_pos ⟨rfl, d, hd, rfl⟩]
      obtain ⟨t, ht⟩ := fromExt_ok skewed .log .w64 (.num (x80.rq (constantValue (some d))))
      rw [fails_eq (p := (.log, .w64)) ht, if_neg]
      intro e
      have e' : d.takum .log .w64 = t := e
      obtain ⟨-, h2, -, -, h5⟩ := skew_ok d hd
      have hl : skewed.log x80 (.num (litX d)) = .num (skew d) := by
        have e0 : skewed.log x80 (.num (litX d)) = (match doubtful.find? (fun d' => decide (litX d = litX d')) with
            | some d => .num (skew d)
            | none => ideal.log x80 (.num (litX d))) := if_pos (e := ideal.log x80 (.num (litX d))) (show x80.prec = 64 from rfl)
        rw [e0]
        have hf : ∀ d ∈ doubtful, doubtful.find? (fun d' => decide (litX d = litX d')) = some d := by decide +kernel
        rw [hf d hd]
      have hb : |skew d| ≤ 2 ^ 100 := by
        have : ∀ d ∈ doubtful, |skew d| ≤ 2 ^ 100 := by decide +kernel
        exact this d hd
      obtain ⟨l, e1, e2, e3⟩ := from_lit (L := skewed) d .w64 (by rw [hl]; exact Fl.Is.num h2) (skew_in d hd) hb
      have e4 : fromExtended skewed .w64 (.num (litX d)) = .ok t := ht
      rw [e3, e1.eq_num (by simpa using h2), ← e'] at e4
      rw [encIs_iff.mpr e4] at h5
      cases h5
    · rw [if_neg (fun h' => h ⟨congrArg Prod.fst h'.1, congrArg Prod.snd h'.1, h'.2⟩)]
      exact h1 c k w h)
  rw [this]
  decide

/-- C88. The test passes with the correctly rounded logarithm although the constants `TAKUM64_6_PI` and
`TAKUM64_6_PI_OVER_5` are not the takums closest to 6π and 6π/5. -/
theorem constants_unnoticed :
    constantsMain ideal = .ok 0 ∧ ¬Closest .log (Const.pi6.takum .log .w64) Const.pi6.real ∧
      ¬Closest .log (Const.pi6_5.takum .log .w64) Const.pi6_5.real := by
  obtain ⟨⟨v, u, h1, h2, h3⟩, ⟨v', u', g1, g2, g3⟩⟩ := constants_log_refuted
  refine ⟨constants_pass ideal_roundedLog, ?_, ?_⟩
  · rintro ⟨x, hx, h⟩
    rw [h1] at hx
    obtain rfl := Option.some.inj hx
    exact absurd (h _ _ h2) (not_le.mpr h3)
  · rintro ⟨x, hx, h⟩
    rw [g1] at hx
    obtain rfl := Option.some.inj hx
    exact absurd (h _ _ g2) (not_le.mpr g3)

/-- Both hypotheses are met. -/
example : RoundedLog ideal ∧ ideal.Accurate := ⟨ideal_roundedLog, ideal_accurate⟩

/-- π as a 64-bit logarithmic takum is not doubtful. -/
example : constantFails ideal (some .pi1) (.log, .w64) = .ok 0 :=
  (constants_accurate ideal_accurate).1 _ _ _ (by rintro ⟨-, -, d, hd, e⟩; cases e; revert hd; decide)

end Takum.Test
