import Verif.Lemmas.RoundTrip

/-!
# Accuracy of the conversions of logarithmic takums (C47)
-/

namespace Takum
open Spec

/-- C47: every takum survives the trip through `long double` and, up to 32 bits, the trip through
`double`, for every math library whose `pow` and `log` have a relative error of at most two units in the
last place (and return NaN for NaN and 0 for `pow(x, -∞)`). -/
theorem log_round_trip (L : Libm) (hL : L.Powers) (hA : L.Accurate) (A : Src) (w : W)
    (h : A = .ext ∨ A = .f64 ∧ w ≠ .w64) (t : T w) :
    ∃ f, logTo L A w t = .ok f ∧ logFrom L A w f = .ok t := by
  by_cases h1 : t = nar w.n
  · subst h1; exact ⟨.nan, logTo_nar hL.nan A w, logFrom_nonfinite L A w rfl⟩
  by_cases h0 : t = 0#w.n
  · subst h0; exact ⟨_, logTo_zero hL A w, logFrom_zero L A w false⟩
  apply round_trip hL hA A _ w _ ⟨h0, h1⟩
  · rintro rfl; rcases h with h | h
    · cases h
    · cases h.1
  · rintro rfl; rcases h with h | h
    · cases h
    · exact h.2

example : ideal.Powers ∧ ideal.Accurate ∧ (Src.f64 = .ext ∨ Src.f64 = .f64 ∧ W.w32 ≠ .w64) :=
  ⟨ideal_powers, ideal_accurate, by decide⟩

end Takum
