import Verif.Model.Overview
import Verif.Props.Install
import Verif.Props.Constants
import Verif.Props.BitOps

/-!
# The overview libtakum(7): its references (C141), the macros it names (C142), and what it says about the multiples of π (C143)
-/

namespace Takum.Overview
open Spec (Kind value ell)
open Takum.Iface

/-! ## C141: the references -/

theorem seeAlsoLoop_some {α : Type} : ∀ (l : List α) (x : α), seeAlsoLoop l (some x) = l ++ [l.getLastD x]
  | [], _ => rfl
  | y :: l, x => by
    rw [seeAlsoLoop, seeAlsoLoop_some l y, List.getLastD_cons]
    rfl

/-- C141: of a list of names the overview leaves out the first and has the last twice. -/
theorem see_also_prints {α : Type} (x : α) (l : List α) : seeAlso (x :: l) = l ++ [l.getLastD x] := by
  rw [seeAlso, seeAlsoLoop, seeAlsoLoop_some]
  rfl

/-- Non-vacuity: three names. -/
example : seeAlso ["a", "b", "c"] = ["b", "c", "c"] := by rw [see_also_prints]; rfl

theorem man3List_eq : man3List = Make.man3.map fun f => "man/" ++ f.text := by
  rw [man3List]
  refine List.map_congr_left fun f _ => ?_
  obtain ⟨k, w, b⟩ := f
  have h : "man/takum" ++ (if k = .lin then "_linear" else "") ++ toString w.n = "man/" ++ Calc.typeName k w := by
    cases k <;> cases w <;> decide +kernel
  rw [Fn.text]
  simp only [h, String.append_assoc]

theorem text_injective : Function.Injective Fn.text := by
  rintro ⟨k, w, b⟩ ⟨k', w', b'⟩ h
  have h := congrArg String.toList h
  cases k <;> cases w <;> cases k' <;> cases w' <;> simp [Fn.text, Calc.typeName, String.toList_append] at h ⊢
  all_goals exact String.toList_inj.mp h

theorem page_injective : Function.Injective fun f : Fn => "man/" ++ f.text := by
  intro f g h
  have h := congrArg String.toList h
  simp only [String.toList_append, List.append_cancel_left_eq] at h
  exact text_injective (String.toList_inj.mp h)

theorem man3_nodup : Make.man3.Nodup :=
  (List.isPerm_iff.mp Install.names_perm).nodup_iff.mp (nodup_of_types header bases_nodup)

/-- The first and the last page of the list (Makefile:122, 729). -/
def first : Fn := ⟨.log, .w8, "10_raised"⟩
def last : Fn := ⟨.lin, .w64, "to_float64"⟩

theorem man3_ends : Make.man3 = first :: Make.man3.tail ∧ Make.man3.tail.getLastD first = last := ⟨rfl, by decide +kernel⟩

theorem references_eq : references = (Make.man3.tail ++ [last]).map fun f => "man/" ++ f.text := by
  have h := see_also_prints first Make.man3.tail
  rw [man3_ends.2, ← man3_ends.1] at h
  have map : ∀ {α β : Type} (f : α → β) (l : List α), seeAlso (l.map f) = (seeAlso l).map f := by
    intro α β f l
    cases l with
    | nil => rfl
    | cons x l =>
      rw [List.map_cons, see_also_prints, see_also_prints, List.map_append, List.map_singleton]
      congr 2
      simp only [List.getLastD_eq_getLast?, List.getLast?_map]
      cases l.getLast? <;> rfl
  rw [references, man3List_eq, map, h]

/-- C141: how often a page is listed, under its name with the directory. -/
theorem overview_partial (q : Proto) (hq : q ∈ header) :
    references.count ("man/" ++ q.fn.text) = if q.fn = first then 0 else if q.fn = last then 2 else 1 := by
  have hm : q.fn ∈ Make.man3 := (List.isPerm_iff.mp Install.names_perm).mem_iff.mp (List.mem_map_of_mem hq)
  have nd := man3_nodup
  rw [references_eq, List.count_map_of_injective _ _ page_injective, List.count_append, List.count_singleton]
  rw [man3_ends.1] at nd hm
  obtain ⟨n1, n2⟩ := List.nodup_cons.mp nd
  by_cases h1 : q.fn = first
  · rw [if_pos h1, h1, List.count_eq_zero_of_not_mem n1, if_neg (by decide)]
  · have : q.fn ∈ Make.man3.tail := (List.mem_cons.mp hm).resolve_left h1
    rw [if_neg h1, List.count_eq_one_of_mem n2 this]
    by_cases h2 : q.fn = last
    · rw [if_pos h2, if_pos (by simp [h2])]
    · rw [if_neg h2, if_neg (by simpa using fun h => h2 h.symm)]

/-- Non-vacuity: a page in the middle of the list is there once. -/
example : references.count "man/takum16_sin" = 1 :=
  overview_partial ⟨.takum .log .w16, ⟨.log, .w16, "sin"⟩, [.takum .log .w16]⟩ (by decide +kernel)

/-- C141 fails for every function: no reference has the name of a page, they all have the directory in front. -/
theorem overview_refuted (q : Proto) : q.fn.text ∉ references := by
  rw [references_eq, List.mem_map]
  rintro ⟨f, -, h⟩
  have h := congrArg String.toList h
  obtain ⟨r, ⟨k, w, b⟩, a⟩ := q
  revert h
  cases k <;> cases w <;> simp [Fn.text, Calc.typeName, String.toList_append]

/-! ## C142: the macros -/

/-- The real number that a comment names; `none` for the comments about the special takums. -/
noncomputable def Arg.real : Arg → ℝ
  | .e => Real.exp 1
  | .num n => n
noncomputable def Note.real : Note → Option ℝ
  | .nar | .smallest | .largest => none
  | .frac a b => some (a * Real.pi / b)
  | .gamma => some Real.eulerMascheroniConstant
  | .log .lb a => some (Real.logb 2 a.real)
  | .log .lg a => some (Real.logb 10 a.real)
  | .log .ln a => some (Real.log a.real)
  | .one => some 1
  | .phi => some Real.goldenRatio
  | .sqrt n => some √n

theorem macros_perm : macros.isPerm (synopsis.flatMap fun s => types.map fun t => ⟨t.1, t.2, s.1⟩) = true := by decide +kernel

theorem mem_types (k : Kind) (w : W) : (k, w) ∈ types := by cases k <;> cases w <;> decide

/-- C142: the synopsis names exactly the macros of takum.h, which are there for each of the types. -/
theorem macros_synopsis (k : Kind) (w : W) (b : String) : ⟨k, w, b⟩ ∈ macros ↔ ∃ n, (b, n) ∈ synopsis := by
  rw [(List.isPerm_iff.mp macros_perm).mem_iff]
  simp only [List.mem_flatMap, List.mem_map, Macro.mk.injEq]
  constructor
  · rintro ⟨⟨b', n⟩, hs, t, -, -, -, rfl⟩
    exact ⟨n, hs⟩
  · rintro ⟨n, hs⟩
    exact ⟨(b, n), hs, (k, w), mem_types k w, rfl, rfl, rfl⟩

/-- Non-vacuity. -/
example : (⟨.lin, .w32, "PHI"⟩ : Macro) ∈ macros := (macros_synopsis ..).mpr ⟨.phi, by decide⟩

/-- C142: no macro is defined twice. -/
theorem macros_nodup : macros.Nodup := by decide +kernel

/-- C142: the description names exactly the macros of takum.h. -/
theorem macros_described (m : Macro) : m ∈ described ↔ m ∈ macros := by
  have h1 : ∀ m ∈ described, m ∈ macros := by decide +kernel
  have h2 : ∀ m ∈ macros, m ∈ described := by decide +kernel
  exact ⟨h1 m, h2 m⟩

/-- The comment of each constant. -/
def note : Const → Note
  | .pi2 => .frac 2 1
  | .pi2_3 => .frac 2 3
  | .pi2_5 => .frac 2 5
  | .pi3 => .frac 3 1
  | .pi3_2 => .frac 3 2
  | .pi3_4 => .frac 3 4
  | .pi3_5 => .frac 3 5
  | .pi4 => .frac 4 1
  | .pi4_3 => .frac 4 3
  | .pi4_5 => .frac 4 5
  | .pi5 => .frac 5 1
  | .pi5_2 => .frac 5 2
  | .pi5_3 => .frac 5 3
  | .pi5_4 => .frac 5 4
  | .pi5_6 => .frac 5 6
  | .pi6 => .frac 6 1
  | .pi6_5 => .frac 6 5
  | .gamma => .gamma
  | .lb_10 => .log .lb (.num 10)
  | .lb_e => .log .lb .e
  | .lg_2 => .log .lg (.num 2)
  | .lg_e => .log .lg .e
  | .ln_10 => .log .ln (.num 10)
  | .ln_2 => .log .ln (.num 2)
  | .phi => .phi
  | .pi1 => .frac 1 1
  | .pi1_2 => .frac 1 2
  | .pi1_3 => .frac 1 3
  | .pi1_4 => .frac 1 4
  | .pi1_5 => .frac 1 5
  | .pi1_6 => .frac 1 6
  | .sqrt2 => .sqrt 2
  | .sqrt3 => .sqrt 3
  | .sqrt5 => .sqrt 5
  | .sqrt6 => .sqrt 6

theorem note_real (c : Const) : (note c).real = some c.real := by
  cases c <;> simp [note, Note.real, Const.real, Arg.real]

theorem const_mem (c : Const) : c ∈ Const.all := by cases c <;> decide

theorem synopsis_note (c : Const) (n : Note) : (c.name, n) ∈ synopsis ↔ n = note c := by
  have h : ∀ c ∈ Const.all, ((c.name, note c) ∈ synopsis) ∧ ∀ s ∈ synopsis, s.1 = c.name → s.2 = note c := by decide +kernel
  obtain ⟨h1, h2⟩ := h c (const_mem c)
  exact ⟨fun hn => h2 _ hn rfl, fun hn => hn ▸ h1⟩

/-- C142: the macro is the takum closest to the number that the comment in the synopsis names (with the two exceptions of C63). -/
theorem synopsis_values (c : Const) (n : Note) (hn : (c.name, n) ∈ synopsis) (w : W) :
    ∃ x : ℝ, n.real = some x ∧ Closest .lin (c.takum .lin w) x ∧
      (¬ (w = .w64 ∧ (c = .pi6 ∨ c = .pi6_5)) → Closest .log (c.takum .log w) x) := by
  rw [synopsis_note] at hn
  subst hn
  exact ⟨_, note_real c, constants_linear c w, constants_log_partial c w⟩

/-- Non-vacuity. -/
example : (Const.lb_10.name, Note.log .lb (.num 10)) ∈ synopsis := by decide

/-- C142: the remaining lines of the synopsis are about the special takums, and what they say is right. -/
theorem synopsis_rest (b : String) (n : Note) (h : (b, n) ∈ synopsis) :
    (∃ c : Const, b = c.name) ∨ (b, n) ∈ [("NAR", .nar), ("POSITIVE_MINIMUM", .smallest), ("POSITIVE_MAXIMUM", .largest), ("ONE", .one)] := by
  have k : ∀ s ∈ synopsis, (∃ c ∈ Const.all, s.1 = c.name) ∨
      s ∈ [("NAR", .nar), ("POSITIVE_MINIMUM", .smallest), ("POSITIVE_MAXIMUM", .largest), ("ONE", .one)] := by decide +kernel
  rcases k _ h with ⟨c, -, hc⟩ | h'
  · exact Or.inl ⟨c, hc⟩
  · exact Or.inr h'

/-! ## C143: the multiples of π -/

theorem constants_distinct : Function.Injective Const.real := by
  have k : ∀ c ∈ Const.all, ∀ d ∈ Const.all, c = d ∨ c.iv.2 < d.iv.1 ∨ d.iv.2 < c.iv.1 := by decide +kernel
  intro c d h
  obtain ⟨c1, c2⟩ := c.iv_real
  obtain ⟨d1, d2⟩ := d.iv_real
  rcases k c (const_mem c) d (const_mem d) with e | e | e
  · exact e
  · have : (c.iv.2 : ℝ) < d.iv.1 := by exact_mod_cast e
    linarith
  · have : (d.iv.2 : ℝ) < c.iv.1 := by exact_mod_cast e
    linarith

/-- C143: there is exactly one constant for every reduced fraction with numerator and denominator up to 6, for every type. -/
theorem pi_fractions (a b : ℕ) (ha : 1 ≤ a ∧ a ≤ 6) (hb : 1 ≤ b ∧ b ≤ 6) (hab : Nat.Coprime a b) :
    ∃! c : Const, c.real = a * Real.pi / b := by
  have k : ∀ a < 7, ∀ b < 7, 1 ≤ a → 1 ≤ b → Nat.Coprime a b → ∃ c ∈ Const.all, note c = .frac a b := by decide +kernel
  obtain ⟨c, -, hc⟩ := k a (by omega) b (by omega) ha.1 hb.1 hab
  have hr := note_real c
  rw [hc, Note.real, Option.some.injEq] at hr
  exact ⟨c, hr.symm, fun d hd => constants_distinct (hd.trans hr)⟩

/-- Non-vacuity: 5π/6. -/
example : ∃! c : Const, c.real = (5 : ℕ) * Real.pi / (6 : ℕ) := pi_fractions 5 6 (by decide) (by decide) (by decide)

/-- C143: the inverse of a constant of a logarithmic type is the takum closest to the inverse of the number. -/
theorem inverse_constants_partial (c : Const) (w : W) (h : ¬ (w = .w64 ∧ (c = .pi6 ∨ c = .pi6_5))) :
    Closest .log (inversion w (c.takum .log w)) c.real⁻¹ := by
  have k : ∀ w, Const.all.all (fun c => decide (w = .w64 ∧ (c = .pi6 ∨ c = .pi6_5)) ||
      (decide (0 < c.iv.1) && chkLog (inversion w (c.takum .log w)) (c.iv.2⁻¹, c.iv.1⁻¹))) = true := by
    intro w; cases w <;> decide +kernel
  have := List.all_eq_true.mp (k w) c (const_mem c)
  rw [Bool.or_eq_true, Bool.and_eq_true] at this
  rcases this with h' | ⟨h1, h2⟩
  · exact absurd (of_decide_eq_true h') h
  · have p : (0 : ℝ) < c.iv.1 := by exact_mod_cast of_decide_eq_true h1
    obtain ⟨i1, i2⟩ := c.iv_real
    refine closest_log h2 ⟨?_, ?_⟩
    · push_cast; exact inv_anti₀ (p.trans_le i1) i2
    · push_cast; exact inv_anti₀ p i1

/-- Non-vacuity: the 64-bit constant for 5π/6. -/
example : Closest .log (inversion .w64 (Const.pi5_6.takum .log .w64)) (5 * Real.pi / 6)⁻¹ := inverse_constants_partial .pi5_6 .w64 (by decide)

/-- C143 fails for the inverses of the two constants that are not the closest takum themselves (C63). -/
theorem inverse_constants_refuted :
    ¬ Closest .log (inversion .w64 (Const.pi6.takum .log .w64)) Const.pi6.real⁻¹ ∧
    ¬ Closest .log (inversion .w64 (Const.pi6_5.takum .log .w64)) Const.pi6_5.real⁻¹ := by
  have main : ∀ c : Const, 0 < c.iv.1 → ∀ t : T .w64, t = inversion .w64 (c.takum .log .w64) → 1 < t.toInt → (t + 1).toInt = t.toInt + 1 →
      |ell t| ≤ 8 → |ell (t + 1)| ≤ 8 → eHi (ell t / 2) + eHi (ell (t + 1) / 2) < 2 * c.iv.2⁻¹ → ¬ Closest .log t c.real⁻¹ := by
    rintro c hc t - h1 h2 b1 b2 h ⟨v, hv, hm⟩
    have half : ∀ q : ℚ, |q| ≤ 8 → |q / 2| ≤ 4 := fun q hq => by rw [abs_div]; norm_num; linarith
    have e1 := (exp_iv (half _ b1)).2
    have e2 := (exp_iv (half _ b2)).2
    have hv' := logVal_pos (t := t) (by omega)
    have hu := logVal_pos (t := t + 1) (by omega)
    have o := (value_order .log hu hv').not.mp (by omega)
    have hh := hm _ _ hu
    rw [show value .log t = _ from hv', Option.some.injEq] at hv
    subst hv
    obtain ⟨i1, i2⟩ := c.iv_real
    have p : (0 : ℝ) < c.iv.1 := by exact_mod_cast hc
    have i3 : (c.iv.2 : ℝ)⁻¹ ≤ c.real⁻¹ := inv_anti₀ (p.trans_le i1) i2
    have h' : (eHi (ell t / 2) : ℝ) + eHi (ell (t + 1) / 2) < 2 * (c.iv.2 : ℝ)⁻¹ := by exact_mod_cast h
    rw [not_le] at o
    have h3 := neg_le_abs (Real.exp ((ell t / 2 : ℚ) : ℝ) - c.real⁻¹)
    have h4 : |Real.exp ((ell (t + 1) / 2 : ℚ) : ℝ) - c.real⁻¹| < c.real⁻¹ - Real.exp ((ell t / 2 : ℚ) : ℝ) := by
      rw [abs_lt]; constructor <;> linarith
    have h5 : |Real.exp ((ell t / 2 : ℚ) : ℝ) - c.real⁻¹| = c.real⁻¹ - Real.exp ((ell t / 2 : ℚ) : ℝ) := by
      rw [abs_of_nonpos (by linarith)]; ring
    linarith
  exact ⟨main .pi6 (by decide +kernel) _ rfl (by decide) (by decide) (by decide +kernel) (by decide +kernel) (by decide +kernel),
    main .pi6_5 (by decide +kernel) _ rfl (by decide) (by decide) (by decide +kernel) (by decide +kernel) (by decide +kernel)⟩

end Takum.Overview
