import Verif.Fl
import Mathlib.Algebra.Order.Floor.Ring
import Mathlib.Data.Rat.Floor

/-!
# Floating-point arithmetic

The formulas of the algorithms are written with an arbitrary arithmetic (`Arith`): theorems that mention it hold for
every rounding and every implementation of the elementary functions. `exactArith` is the instance without rounding
(rational arithmetic with the IEEE rules for infinities and NaN); it is used for statements about exact arithmetic and
for concrete runs.
-/

namespace NiaPy

/-- Elementary functions of one argument used by the library. -/
inductive Fn where
  | exp | log | sqrt | sin | cos | tan | gamma | tanh | round | arctan | arccos
  deriving DecidableEq

/-- Binary operations and elementary functions on floats; nothing is assumed about them. -/
class Arith where
  add : Fl → Fl → Fl
  sub : Fl → Fl → Fl
  mul : Fl → Fl → Fl
  div : Fl → Fl → Fl
  mod : Fl → Fl → Fl
  pow : Fl → Fl → Fl
  fn : Fn → Fl → Fl

instance [Arith] : Add Fl := ⟨Arith.add⟩
instance [Arith] : Sub Fl := ⟨Arith.sub⟩
instance [Arith] : Mul Fl := ⟨Arith.mul⟩
instance [Arith] : Div Fl := ⟨Arith.div⟩
instance [Arith] : Mod Fl := ⟨Arith.mod⟩
instance [Arith] : HPow Fl Fl Fl := ⟨Arith.pow⟩

instance (n : ℕ) : OfNat Fl n := ⟨.fin n⟩

namespace Fl

/-- `np.abs` (exact on floats). -/
def abs : Fl → Fl
  | nan => nan
  | ninf => pinf
  | fin q => fin |q|
  | pinf => pinf

/-- An integer as a float. -/
def ofNat (n : ℕ) : Fl := fin n

/-- Sign: -1, 0 or 1 (`np.sign`). -/
def sgn : Fl → Fl
  | nan => nan
  | ninf => fin (-1)
  | fin q => if q < 0 then fin (-1) else if q = 0 then fin 0 else fin 1
  | pinf => fin 1

/-- Exact addition. -/
def addX : Fl → Fl → Fl
  | nan, _ => nan
  | _, nan => nan
  | pinf, ninf => nan
  | ninf, pinf => nan
  | pinf, _ => pinf
  | _, pinf => pinf
  | ninf, _ => ninf
  | _, ninf => ninf
  | fin a, fin b => fin (a + b)

/-- Infinity with the sign of `q`; NaN for 0. -/
def infOf (q : ℚ) : Fl := if 0 < q then pinf else if q < 0 then ninf else nan

/-- Exact multiplication. -/
def mulX : Fl → Fl → Fl
  | nan, _ => nan
  | _, nan => nan
  | fin a, fin b => fin (a * b)
  | pinf, pinf => pinf
  | pinf, ninf => ninf
  | ninf, pinf => ninf
  | ninf, ninf => pinf
  | pinf, fin b => infOf b
  | ninf, fin b => infOf (-b)
  | fin a, pinf => infOf a
  | fin a, ninf => infOf (-a)

/-- Exact division. -/
def divX : Fl → Fl → Fl
  | nan, _ => nan
  | _, nan => nan
  | fin a, fin b => if b = 0 then infOf a else fin (a / b)
  | fin _, pinf => fin 0
  | fin _, ninf => fin 0
  | pinf, fin b => if b < 0 then ninf else pinf
  | ninf, fin b => if b < 0 then pinf else ninf
  | _, _ => nan

/-- Exact `np.mod` / Python `%` (the result has the sign of the divisor; NaN for divisor 0, where NumPy warns). -/
def modX : Fl → Fl → Fl
  | fin a, fin b => if b = 0 then nan else fin (a - b * ⌊a / b⌋)
  | fin a, pinf => if a < 0 then pinf else fin a
  | fin a, ninf => if 0 < a then ninf else fin a
  | _, _ => nan

/-- Exact power for natural exponents; other exponents are not needed exactly and give NaN. -/
def powX : Fl → Fl → Fl
  | fin a, fin b => if b.den = 1 ∧ 0 ≤ b.num then fin (a ^ b.num.toNat) else nan
  | _, _ => nan

end Fl

/-- Arithmetic without rounding; the elementary functions are a parameter. -/
@[reducible] def exactArith (fn : Fn → Fl → Fl := fun _ x => x) : Arith where
  add := Fl.addX
  sub a b := Fl.addX a (-b)
  mul := Fl.mulX
  div := Fl.divX
  mod := Fl.modX
  pow := Fl.powX
  fn := fn

/-- Points of the search space of dimension `D`. -/
abbrev Vec (D : ℕ) := Fin D → Fl

/-- The search space of a task: `task.lower`, `task.upper` (task.py:80-84), with `lower <= upper`. -/
structure Box (D : ℕ) where
  lo : Vec D
  hi : Vec D
  le : ∀ i, lo i ≤ hi i

namespace Box
variable {D : ℕ} (B : Box D)

/-- Every coordinate lies between its bounds. -/
def Mem (x : Vec D) : Prop := ∀ i, B.lo i ≤ x i ∧ x i ≤ B.hi i

/-- No coordinate is below its lower or above its upper bound (NaN coordinates are neither). -/
def NotOut (x : Vec D) : Prop := ∀ i, ¬ x i < B.lo i ∧ ¬ B.hi i < x i

instance (x : Vec D) : Decidable (B.Mem x) := inferInstanceAs (Decidable (∀ _, _))
instance (x : Vec D) : Decidable (B.NotOut x) := inferInstanceAs (Decidable (∀ _, _))

theorem Mem.notOut {B : Box D} {x : Vec D} (h : B.Mem x) : B.NotOut x :=
  fun i => ⟨Fl.not_lt_of_le (h i).1, Fl.not_lt_of_le (h i).2⟩

theorem NotOut.mem {B : Box D} {x : Vec D} (h : B.NotOut x) (hn : ∀ i, x i ≠ .nan) : B.Mem x := fun i =>
  ⟨Fl.le_of_not_lt (hn i) (Fl.ne_nan_of_le_left (B.le i)) (h i).1,
   Fl.le_of_not_lt (Fl.ne_nan_of_le_right (B.le i)) (hn i) (h i).2⟩

end Box

end NiaPy
