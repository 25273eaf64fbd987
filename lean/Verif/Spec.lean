import Verif.Prog

/-!
# Specification vocabulary

Small definitions used to *state* properties. They do not use the functions of the model; they only talk about the
log of objective calls and about plain lists of values.
-/

namespace NiaPy
variable {X : Type}

/-- The objective values returned so far, in order (calls that raised have no value). -/
def values (calls : List (X × Except PyErr Fl)) : List Fl :=
  calls.filterMap fun c => match c.2 with
    | .ok r => some r
    | .error _ => none

/-- `b` is the best of the values `vs`, NaN ignored: the least one when minimizing (`+inf` if there is none), the
greatest one when maximizing (`-inf` if there is none). -/
def BestOf : OptType → List Fl → Fl → Prop
  | .minimization, vs, b => b ≠ .nan ∧ (b ∈ vs ∨ b = .pinf) ∧ ∀ v ∈ vs, v ≠ .nan → b ≤ v
  | .maximization, vs, b => b ≠ .nan ∧ (b ∈ vs ∨ b = .ninf) ∧ ∀ v ∈ vs, v ≠ .nan → v ≤ b

/-- `a` is at least as good as `b`. -/
def AtLeastAsGood : OptType → Fl → Fl → Prop
  | .minimization, a, b => a ≤ b
  | .maximization, a, b => b ≤ a

instance (t : OptType) (a b : Fl) : Decidable (AtLeastAsGood t a b) := by
  cases t <;> exact inferInstanceAs (Decidable (_ ≤ _))

/-- The best value is unique. -/
theorem BestOf.unique {t : OptType} {vs : List Fl} {a b : Fl} (ha : BestOf t vs a) (hb : BestOf t vs b) :
    a = b := by
  cases t with
  | minimization =>
    obtain ⟨ha0, ha1, ha2⟩ := ha
    obtain ⟨hb0, hb1, hb2⟩ := hb
    rcases ha1 with h | h <;> rcases hb1 with h' | h'
    · exact Fl.le_antisymm (ha2 _ h' hb0) (hb2 _ h ha0)
    · subst h'; exact Fl.le_antisymm (Fl.le_pinf ha0) (hb2 _ h ha0)
    · subst h; exact Fl.le_antisymm (ha2 _ h' hb0) (Fl.le_pinf hb0)
    · rw [h, h']
  | maximization =>
    obtain ⟨ha0, ha1, ha2⟩ := ha
    obtain ⟨hb0, hb1, hb2⟩ := hb
    rcases ha1 with h | h <;> rcases hb1 with h' | h'
    · exact Fl.le_antisymm (hb2 _ h ha0) (ha2 _ h' hb0)
    · subst h'; exact Fl.le_antisymm (hb2 _ h ha0) (Fl.ninf_le ha0)
    · subst h; exact Fl.le_antisymm (Fl.ninf_le hb0) (ha2 _ h' hb0)
    · rw [h, h']

end NiaPy
