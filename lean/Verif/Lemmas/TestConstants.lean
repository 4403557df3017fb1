import Verif.Model.TestConstants
import Verif.TestSpec
import Verif.Lemmas.ConstIv
import Verif.Lemmas.MonoConv
import Verif.Lemmas.IdealInv

/-!
# The logarithms of the literals of test/constants.c
-/

namespace Takum.Test
open Takum Spec

/-- The literal of an entry, as `long double`. -/
def litX (c : Const) : ℚ := x80.rq (constantValue (some c))

/-- Bounds of the logarithm of the literals: `A`, `g`, `kl`, `kh` with `A / 2^90 ≤ log x ≤ (A + 1) / 2^90`, where the
values of the `long double` type near `log x` are the multiples of `2^-g`, and those within four units of `2^-64`
relative to it are from `kl / 2^g` to `kh / 2^g`. -/
def logRow : Const → ℤ × ℕ × ℤ × ℤ
  | .pi2 => (2275181607792484600346019320, 63, 16951423941496644914, 16951423941496644920)
  | .pi2_3 => (915165467999283353933527477, 64, 13637028157700350192, 13637028157700350197)
  | .pi2_5 => (282793975246433963799324516, 66, 16855834439184305891, 16855834439184305897)
  | .pi3 => (2777123099652756575632684734, 62, 10345589740770893451, 10345589740770893455)
  | .pi3_2 => (1919048451719827304521099247, 63, 14298025158940459074, 14298025158940459079)
  | .pi3_4 => (1060973803786898033409513761, 64, 15809741672678262490, 15809741672678262496)
  | .pi3_5 => (784735467106705939057508043, 64, 11693469689886360450, 11693469689886360454)
  | .pi4 => (3133256255725413871457604807, 62, 11672289132048986371, 11672289132048986375)
  | .pi4_3 => (1773240115932212625045112964, 63, 13211668401451502925, 13211668401451502929)
  | .pi4_5 => (1140868623179363234910910002, 64, 17000267254998732130, 17000267254998732137)
  | .pi5 => (3409494592405605965764039506, 62, 12701357127746961881, 12701357127746961886)
  | .pi5_2 => (2551419944472676694652454020, 62, 9504779966446297967, 9504779966446297970)
  | .pi5_3 => (2049478452612404719394270493, 63, 15269804392847453945, 15269804392847453950)
  | .pi5_4 => (1693345296539747423540868534, 63, 12616405610291268105, 12616405610291268109)
  | .pi5_6 => (1191403804679475448282685007, 64, 17753300140492252232, 17753300140492252238)
  | .pi6 => (3635197747585685846744270220, 62, 13542166902071557366, 13542166902071557371)
  | .pi6_5 => (1642810115039635210169093529, 63, 12239889167544508054, 12239889167544508058)
  | .gamma => (-680296718701358277834403080, 64, -10137211065014575093, -10137211065014575090)
  | .lb_10 => (1486203177339001173651583221, 63, 11073076556168505351, 11073076556168505355)
  | .lb_e => (453721019303464997720155858, 65, 13521940091355591942, 13521940091355591947)
  | .lg_2 => (-1486203177339001173625712168, 63, -11073076556168505355, -11073076556168505351)
  | .lg_e => (-1032482158035536175994419856, 64, -15385183066659214738, -15385183066659214732)
  | .ln_10 => (1032482158035536175988180277, 64, 15385183066659214732, 15385183066659214738)
  | .ln_2 => (-453721019303464997675899662, 65, -13521940091355591946, -13521940091355591941)
  | .phi => (595711385618875032042136006, 65, 17753582764234394787, 17753582764234394793)
  | .pi1 => (1417106959859555329234433834, 63, 10558269618895317085, 10558269618895317089)
  | .pi1_2 => (559032311926626058122848347, 65, 16660461185175957025, 16660461185175957031)
  | .pi1_3 => (57090820066354082821941991, 68, 13611512199963112548, 13611512199963112553)
  | .pi1_4 => (-299042336006303212988737139, 66, -17824312210458708587, -17824312210458708580)
  | .pi1_5 => (-575280672686495307312260970, 65, -17144700070813158376, -17144700070813158369)
  | .pi1_6 => (-800983827866575188289643496, 64, -11935589132704961127, -11935589132704961123)
  | .sqrt2 => (429037323966464635522616188, 65, 12786308645202655657, 12786308645202655661)
  | .sqrt3 => (680008069896600623217961232, 64, 10132909862646469818, 10132909862646469822)
  | .sqrt5 => (996193816273025318276251927, 64, 14844444636598606677, 14844444636598606683)
  | .sqrt6 => (1109045393863065258729954297, 64, 16526064185247797646, 16526064185247797652)

def rowA (c : Const) : ℚ := (logRow c).1 / 2 ^ 90
def rowB (c : Const) : ℚ := ((logRow c).1 + 1) / 2 ^ 90
def rowE (c : Const) : ℚ := 4 / 2 ^ 64 * max |rowA c| |rowB c|
def rowK (c : Const) (k : ℤ) : ℚ := k / 2 ^ (logRow c).2.1

/-- Whether the encoder gives the constant. -/
def encIs (c : Const) (w : W) (l : ℚ) : Bool :=
  match logEnc .ext w false (.num (2 * l)) with
  | .ok t => t == c.takum .log w
  | .error _ => false

theorem encIs_iff {c : Const} {w : W} {l : ℚ} : encIs c w l = true ↔ logEnc .ext w false (.num (2 * l)) = .ok (c.takum .log w) := by
  unfold encIs
  cases logEnc .ext w false (.num (2 * l)) with
  | ok t => simp
  | error e => simp

def chkRow (c : Const) : Bool :=
  decide (|rowA c| ≤ 4 ∧ |rowB c| ≤ 4 ∧ eHi (rowA c) ≤ litX c ∧ litX c ≤ eLo (rowB c) ∧ 0 < litX c ∧ litX c ≤ 100)

def chkGrid (c : Const) : Bool :=
  decide ((2 ^ 63 / 2 ^ (logRow c).2.1 ≤ rowA c - rowE c ∨ rowB c + rowE c ≤ -(2 ^ 63 / 2 ^ (logRow c).2.1)) ∧
    (logRow c).2.1 ≤ 100 ∧
    rowK c ((logRow c).2.2.1 - 1) < rowA c - rowE c ∧ rowB c + rowE c < rowK c ((logRow c).2.2.2 + 1) ∧
    |(logRow c).2.2.1| < 2 ^ 64 ∧ |(logRow c).2.2.2| < 2 ^ 64 ∧ (logRow c).2.2.1 ≠ 0 ∧ (logRow c).2.2.2 ≠ 0)

theorem row_ok (c : Const) : chkRow c = true := by
  have h : Const.all.all chkRow = true := by decide +kernel
  exact List.all_eq_true.mp h c (by cases c <;> decide)

theorem grid_ok (c : Const) : chkGrid c = true := by
  have h : Const.all.all chkGrid = true := by decide +kernel
  exact List.all_eq_true.mp h c (by cases c <;> decide)

/-- The constants of 64 bits for which a library accurate to two units may give another takum. -/
def doubtful : List Const := [.pi6, .pi6_5, .lb_10, .lg_2, .lg_e, .ln_10, .sqrt6]

theorem acc_ok (c : Const) (w : W) (h : ¬(w = .w64 ∧ c ∈ doubtful)) :
    encIs c w (rowK c (logRow c).2.2.1) = true ∧ encIs c w (rowK c (logRow c).2.2.2) = true := by
  have k : ∀ w : W, Const.all.all (fun c => decide (w = .w64 ∧ c ∈ doubtful) ||
      (encIs c w (rowK c (logRow c).2.2.1) && encIs c w (rowK c (logRow c).2.2.2))) = true := by
    intro w; cases w <;> decide +kernel
  have := List.all_eq_true.mp (k w) c (by cases c <;> decide)
  rw [Bool.or_eq_true, Bool.and_eq_true] at this
  rcases this with h' | h'
  · exact absurd (of_decide_eq_true h') h
  · exact h'

theorem rnd_ok (c : Const) (w : W) : encIs c w (x80.rq (rowA c)) = true ∧ encIs c w (x80.rq (rowB c)) = true := by
  have k : ∀ w : W, Const.all.all (fun c =>
      (encIs c w (x80.rq (rowA c)) && encIs c w (x80.rq (rowB c)))) = true := by
    intro w; cases w <;> decide +kernel
  have := List.all_eq_true.mp (k w) c (by cases c <;> decide)
  rw [Bool.and_eq_true] at this
  exact this

theorem rnd_ne (c : Const) : x80.rq (rowA c) ≠ 0 ∧ x80.rq (rowB c) ≠ 0 := by
  have h : Const.all.all (fun c => decide (x80.rq (rowA c) ≠ 0 ∧ x80.rq (rowB c) ≠ 0)) = true := by decide +kernel
  exact of_decide_eq_true (List.all_eq_true.mp h c (by cases c <;> decide))

/-- The values of the format above a power of two are multiples of its unit. -/
theorem grid {g : ℕ} {r : ℚ} (h : x80.Rep r) (hr : 2 ^ 63 / 2 ^ g ≤ |r|) : ∃ k : ℤ, r = k / 2 ^ g := by
  obtain ⟨m, e, rfl, hm, -⟩ := h
  have hm' : |(m : ℚ)| < 2 ^ 64 := by exact_mod_cast hm
  have hl : 0 ≤ e + g := by
    by_contra hc
    have h1 : (2 : ℚ) ^ e ≤ 2 ^ (-(g : ℤ) - 1) := zpow_le_zpow_right₀ (by norm_num) (by omega)
    rw [abs_mul, abs_of_pos (by positivity : (0 : ℚ) < 2 ^ e)] at hr
    have h2 : |(m : ℚ)| * 2 ^ e < 2 ^ 64 * 2 ^ (-(g : ℤ) - 1) :=
      lt_of_lt_of_le (mul_lt_mul_of_pos_right hm' (by positivity)) (by gcongr)
    rw [zpow_sub₀ (by norm_num), zpow_neg, zpow_natCast] at h2
    have : (2 : ℚ) ^ 64 * ((2 ^ g)⁻¹ / 2 ^ (1 : ℤ)) = 2 ^ 63 / 2 ^ g := by field_simp
    rw [this] at h2
    linarith
  refine ⟨m * 2 ^ (e + g).toNat, ?_⟩
  rw [eq_div_iff (by positivity)]
  push_cast
  rw [← zpow_natCast (2 : ℚ) (e + g).toNat, Int.toNat_of_nonneg hl, zpow_add₀ (by norm_num), zpow_natCast]
  ring

theorem grid_rep {g : ℕ} {k : ℤ} (hg : g ≤ 100) (hk : |k| < 2 ^ 64) : x80.Rep (2 * ((k : ℚ) / 2 ^ g)) ∧ x80.Rep ((k : ℚ) / 2 ^ g) := by
  refine ⟨⟨k, 1 - g, ?_, hk, ?_⟩, ⟨k, -g, ?_, hk, ?_⟩⟩
  · rw [zpow_sub₀ (by norm_num), zpow_natCast, zpow_one]; ring
  · have : x80.emin ≤ -1000 := by decide
    omega
  · rw [zpow_neg, zpow_natCast]; ring
  · have : x80.emin ≤ -1000 := by decide
    omega

theorem lin_ok (c : Option Const) (w : W) : linFromExtended w (.num (x80.rq (constantValue c))) = .ok (expectedConstant c .lin w) := by
  have k : ∀ w : W, constantTests.all (fun c => match linFromExtended w (.num (x80.rq (constantValue c))) with
      | .ok t => t == expectedConstant c .lin w
      | .error _ => false) = true := by
    intro w; cases w <;> decide +kernel
  have := List.all_eq_true.mp (k w) c (by rcases c with _ | c; · decide
                                          cases c <;> decide)
  cases h : linFromExtended w (.num (x80.rq (constantValue c))) with
  | ok t => rw [h] at this; simpa using this
  | error e => rw [h] at this; simp at this

end Takum.Test
