import Mathlib.Algebra.Order.Field.Rat
import Mathlib.Tactic.Linarith

/-!
# Floating-point values

`Fl` is the value set of the model: NaN, the two infinities and finite rationals. Every IEEE-754 double is one of
these (the two zeros are identified). Comparison and negation of doubles are exact, so the definitions below are
what CPython/NumPy compute for `<`, `<=`, `==` and unary minus.
-/

namespace NiaPy

/-- A Python/NumPy float: NaN, -inf, a finite value, +inf. -/
inductive Fl where
  | nan
  | ninf
  | fin (q : ℚ)
  | pinf
  deriving DecidableEq

namespace Fl

instance : Inhabited Fl := ⟨nan⟩

/-- IEEE `a < b`: false as soon as one side is NaN. -/
def ltB : Fl → Fl → Bool
  | ninf, fin _ => true
  | ninf, pinf => true
  | fin a, fin b => decide (a < b)
  | fin _, pinf => true
  | _, _ => false

/-- IEEE `a <= b`: false as soon as one side is NaN. -/
def leB : Fl → Fl → Bool
  | ninf, ninf => true
  | ninf, fin _ => true
  | ninf, pinf => true
  | fin a, fin b => decide (a ≤ b)
  | fin _, pinf => true
  | pinf, pinf => true
  | _, _ => false

instance : LT Fl := ⟨fun a b => ltB a b = true⟩
instance : LE Fl := ⟨fun a b => leB a b = true⟩
instance (a b : Fl) : Decidable (a < b) := inferInstanceAs (Decidable (ltB a b = true))
instance (a b : Fl) : Decidable (a ≤ b) := inferInstanceAs (Decidable (leB a b = true))

/-- IEEE `a == b`: like `=`, except that NaN differs from itself. -/
def eqB (a b : Fl) : Bool := decide (a = b) && decide (a ≠ nan)

/-- IEEE unary minus. -/
def neg : Fl → Fl
  | nan => nan
  | ninf => pinf
  | fin q => fin (-q)
  | pinf => ninf

instance : Neg Fl := ⟨neg⟩

theorem lt_def (a b : Fl) : a < b ↔ ltB a b = true := Iff.rfl
theorem le_def (a b : Fl) : a ≤ b ↔ leB a b = true := Iff.rfl

@[simp] theorem neg_nan : -nan = nan := rfl
@[simp] theorem neg_ninf : -ninf = pinf := rfl
@[simp] theorem neg_pinf : -pinf = ninf := rfl
@[simp] theorem neg_fin (q : ℚ) : -fin q = fin (-q) := rfl
@[simp] theorem neg_neg (a : Fl) : - -a = a := by cases a <;> simp

@[simp] theorem fin_lt_fin (a b : ℚ) : fin a < fin b ↔ a < b := by simp [lt_def, ltB]
@[simp] theorem fin_le_fin (a b : ℚ) : fin a ≤ fin b ↔ a ≤ b := by simp [le_def, leB]
@[simp] theorem not_nan_lt (a : Fl) : ¬ nan < a := by simp [lt_def, ltB]
@[simp] theorem not_lt_nan (a : Fl) : ¬ a < nan := by cases a <;> simp [lt_def, ltB]
@[simp] theorem not_nan_le (a : Fl) : ¬ nan ≤ a := by simp [le_def, leB]
@[simp] theorem not_le_nan (a : Fl) : ¬ a ≤ nan := by cases a <;> simp [le_def, leB]
@[simp] theorem not_lt_ninf (a : Fl) : ¬ a < ninf := by cases a <;> simp [lt_def, ltB]
@[simp] theorem not_pinf_lt (a : Fl) : ¬ pinf < a := by simp [lt_def, ltB]
@[simp] theorem fin_lt_pinf (a : ℚ) : fin a < pinf := by simp [lt_def, ltB]
@[simp] theorem ninf_lt_fin (a : ℚ) : ninf < fin a := by simp [lt_def, ltB]
@[simp] theorem ninf_lt_pinf : ninf < pinf := by simp [lt_def, ltB]
@[simp] theorem fin_le_pinf (a : ℚ) : fin a ≤ pinf := by simp [le_def, leB]
@[simp] theorem ninf_le_fin (a : ℚ) : ninf ≤ fin a := by simp [le_def, leB]
@[simp] theorem ninf_le_pinf : ninf ≤ pinf := by simp [le_def, leB]
@[simp] theorem pinf_le_pinf : pinf ≤ pinf := by simp [le_def, leB]
@[simp] theorem ninf_le_ninf : ninf ≤ ninf := by simp [le_def, leB]
@[simp] theorem not_fin_le_ninf (a : ℚ) : ¬ fin a ≤ ninf := by simp [le_def, leB]
@[simp] theorem not_pinf_le_ninf : ¬ pinf ≤ ninf := by simp [le_def, leB]
@[simp] theorem not_pinf_le_fin (a : ℚ) : ¬ pinf ≤ fin a := by simp [le_def, leB]

theorem le_refl {a : Fl} (h : a ≠ nan) : a ≤ a := by cases a <;> simp_all
theorem lt_irrefl (a : Fl) : ¬ a < a := by cases a <;> simp
theorem ne_nan_of_lt_left {a b : Fl} (h : a < b) : a ≠ nan := by rintro rfl; simp at h
theorem ne_nan_of_lt_right {a b : Fl} (h : a < b) : b ≠ nan := by rintro rfl; simp at h
theorem ne_nan_of_le_left {a b : Fl} (h : a ≤ b) : a ≠ nan := by rintro rfl; simp at h
theorem ne_nan_of_le_right {a b : Fl} (h : a ≤ b) : b ≠ nan := by rintro rfl; simp at h

theorem le_of_lt {a b : Fl} (h : a < b) : a ≤ b := by
  cases a <;> cases b <;> simp_all; exact _root_.le_of_lt h
theorem lt_trans {a b c : Fl} (h : a < b) (h' : b < c) : a < c := by
  cases a <;> cases b <;> cases c <;> simp_all; exact _root_.lt_trans h h'
theorem le_trans {a b c : Fl} (h : a ≤ b) (h' : b ≤ c) : a ≤ c := by
  cases a <;> cases b <;> cases c <;> simp_all; exact _root_.le_trans h h'
theorem lt_of_lt_of_le {a b c : Fl} (h : a < b) (h' : b ≤ c) : a < c := by
  cases a <;> cases b <;> cases c <;> simp_all; exact _root_.lt_of_lt_of_le h h'
theorem lt_of_le_of_lt {a b c : Fl} (h : a ≤ b) (h' : b < c) : a < c := by
  cases a <;> cases b <;> cases c <;> simp_all; exact _root_.lt_of_le_of_lt h h'
theorem le_antisymm {a b : Fl} (h : a ≤ b) (h' : b ≤ a) : a = b := by
  cases a <;> cases b <;> simp_all; exact _root_.le_antisymm h h'
/-- The largest double below 1, `1 - 2 ^ -53`. -/
def belowOne : Fl := fin (9007199254740991 / 9007199254740992)

theorem lt_one {r : Fl} (h : r ≤ belowOne) : r < fin 1 := by
  cases r with
  | fin q =>
    simp only [belowOne, fin_le_fin] at h
    rw [fin_lt_fin]
    exact _root_.lt_of_le_of_lt h (by norm_num)
  | nan => simp [belowOne] at h
  | pinf => simp [belowOne] at h
  | ninf => simp

theorem not_lt_of_le {a b : Fl} (h : a ≤ b) : ¬ b < a := by
  cases a <;> cases b <;> simp_all
theorem not_le_of_lt {a b : Fl} (h : a < b) : ¬ b ≤ a := by
  cases a <;> cases b <;> simp_all
theorem le_of_not_lt {a b : Fl} (ha : a ≠ nan) (hb : b ≠ nan) (h : ¬ a < b) : b ≤ a := by
  cases a <;> cases b <;> simp_all
theorem lt_of_not_le {a b : Fl} (ha : a ≠ nan) (hb : b ≠ nan) (h : ¬ a ≤ b) : b < a := by
  cases a <;> cases b <;> simp_all
theorem le_total {a b : Fl} (ha : a ≠ nan) (hb : b ≠ nan) : a ≤ b ∨ b ≤ a := by
  cases a <;> cases b <;> simp_all; exact _root_.le_total _ _
theorem lt_or_eq_of_le {a b : Fl} (h : a ≤ b) : a < b ∨ a = b := by
  cases a <;> cases b <;> simp_all; exact _root_.lt_or_eq_of_le h
theorem le_pinf {a : Fl} (h : a ≠ nan) : a ≤ pinf := by cases a <;> simp_all
theorem ninf_le {a : Fl} (h : a ≠ nan) : ninf ≤ a := by cases a <;> simp_all
theorem eq_pinf_of_le {a : Fl} (h : pinf ≤ a) : a = pinf := by cases a <;> simp_all
theorem lt_pinf_of_ne {a : Fl} (h : a ≠ nan) (h' : a ≠ pinf) : a < pinf := by cases a <;> simp_all
theorem ne_of_lt {a b : Fl} (h : a < b) : a ≠ b := by rintro rfl; exact lt_irrefl _ h

@[simp] theorem neg_lt_neg (a b : Fl) : -a < -b ↔ b < a := by
  cases a <;> cases b <;> simp
@[simp] theorem neg_le_neg (a b : Fl) : -a ≤ -b ↔ b ≤ a := by
  cases a <;> cases b <;> simp
@[simp] theorem neg_eq_nan (a : Fl) : -a = nan ↔ a = nan := by cases a <;> simp
theorem neg_inj {a b : Fl} : -a = -b ↔ a = b := by
  constructor
  · intro h; simpa using congrArg Neg.neg h
  · rintro rfl; rfl

/-- `min` of two non-NaN values as NumPy computes it (`np.minimum`): NaN propagates. -/
def npMin (a b : Fl) : Fl := if a = nan ∨ b = nan then nan else if b < a then b else a
/-- `np.maximum`: NaN propagates. -/
def npMax (a b : Fl) : Fl := if a = nan ∨ b = nan then nan else if a < b then b else a

end Fl

/-- Python exceptions that the modelled code can raise. -/
inductive PyErr where
  | valueError
  | typeError
  | indexError
  | keyError
  | attributeError
  | zeroDivisionError
  | overflowError
  | recursionError
  /-- an exception raised by user code (objective function or callback) -/
  | user (tag : ℕ)
  /-- not a Python exception: the modelled loop did not end within the given fuel -/
  | outOfFuel
  deriving DecidableEq, Inhabited

end NiaPy
