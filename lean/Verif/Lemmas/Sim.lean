import Verif.CSem

/-!
# Two computations that agree
-/

namespace Takum

/-- Both are undefined in the same way, or both have results that are related. -/
def Sim {α β : Type} (R : α → β → Prop) : C α → C β → Prop
  | .error u, .error v => u = v
  | .ok x, .ok y => R x y
  | _, _ => False

theorem Sim.bind {α β α' β' : Type} {R : α → β → Prop} {S : α' → β' → Prop} {a : C α} {b : C β} {f : α → C α'} {g : β → C β'}
    (h : Sim R a b) (hf : ∀ x y, R x y → Sim S (f x) (g y)) : Sim S (a >>= f) (b >>= g) := by
  cases a <;> cases b
  · exact h
  · exact h.elim
  · exact h.elim
  · exact hf _ _ h

theorem Sim.refl {α : Type} (a : C α) : Sim Eq a a := by cases a <;> rfl

theorem Sim.eq {α : Type} {a b : C α} (h : Sim Eq a b) : a = b := by
  cases a <;> cases b
  · exact congrArg _ h
  · exact h.elim
  · exact h.elim
  · exact congrArg _ h

theorem Sim.of_eq {α : Type} {a b : C α} (h : a = b) : Sim Eq a b := h ▸ Sim.refl a

theorem Sim.mono {α β : Type} {R S : α → β → Prop} {a : C α} {b : C β} (h : Sim R a b) (hs : ∀ x y, R x y → S x y) : Sim S a b := by
  cases a <;> cases b
  · exact h
  · exact h.elim
  · exact h.elim
  · exact hs _ _ h

end Takum
