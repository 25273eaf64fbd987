import Verif.Arith
import Verif.Example

/-!
# Model of `niapy/util/repair.py`, `Task.repair`, `Task.is_feasible` and `niapy/util/array.py`

The repair functions work coordinate by coordinate. They modify their argument in place and return it; the model
returns the new value. The bounds and the solution have the same length (the dimension), as in every call made by the
library.
-/

namespace NiaPy
namespace Repair
variable {D : ℕ}

/-- `np.clip(v, lo, hi)` for one coordinate: `minimum(maximum(v, lo), hi)`, NaN propagates. -/
def clip (v lo hi : Fl) : Fl := Fl.npMin (Fl.npMax v lo) hi

/-- `limit` (repair.py:7-19). -/
def limit (B : Box D) (x : Vec D) : Vec D := fun i => clip (x i) (B.lo i) (B.hi i)

/-- `x[ir] = new[ir]` where `ir = np.where(cond)`. -/
def setWhere (cond : Fin D → Bool) (new x : Vec D) : Vec D := fun i => if cond i then new i else x i

/-- `limit_inverse` (repair.py:22-38). -/
def limitInverse (B : Box D) (x : Vec D) : Vec D :=
  let x := setWhere (fun i => x i < B.lo i) B.hi x
  setWhere (fun i => B.hi i < x i) B.lo x

/-- `wang` (repair.py:41-57); `np.amin`/`np.amax` over two rows propagate NaN like `np.minimum`/`np.maximum`. -/
def wang [Arith] (B : Box D) (x : Vec D) : Vec D :=
  let x := setWhere (fun i => x i < B.lo i) (fun i => Fl.npMin (B.hi i) (2 * B.lo i - x i)) x
  setWhere (fun i => B.hi i < x i) (fun i => Fl.npMax (B.lo i) (2 * B.hi i - x i)) x

/-- `rand` (repair.py:60-78). `k` is the number of draws made before from the generator; the draw for coordinate `i`
is identified by `k` and the position `i + 1`. The generator is the one given by the caller, or a fresh one seeded
from the operating system when none is given (`default_rng(None)`). -/
def rand (B : Box D) (rng : Rng) (k : ℕ) (x : Vec D) : Vec D :=
  let x := setWhere (fun i => x i < B.lo i) (fun i => rng.unif k (i + 1) (B.lo i) (B.hi i)) x
  setWhere (fun i => B.hi i < x i) (fun i => rng.unif k (i + 1) (B.lo i) (B.hi i)) x

/-- `reflect` (repair.py:81-97). -/
def reflect [Arith] (B : Box D) (x : Vec D) : Vec D :=
  let x := setWhere (fun i => B.hi i < x i) (fun i => B.lo i + x i % (B.hi i - B.lo i)) x
  setWhere (fun i => x i < B.lo i) (fun i => B.lo i + x i % (B.hi i - B.lo i)) x

end Repair

/-- `Task.is_feasible` (task.py:155-165). -/
def isFeasible {D : ℕ} (B : Box D) (x : Vec D) : Bool :=
  (List.finRange D).all fun i => decide (B.lo i ≤ x i) && decide (x i ≤ B.hi i)

/-! ### `niapy/util/array.py` -/

/-- Arguments of `full_array`: a Python scalar, a one-dimensional sequence, or something else (for instance `None`, a
string or a NumPy scalar that is not a Python float). -/
inductive ArrayArg where
  | scalar (v : Fl)
  | seq (l : List Fl)
  | other

/-- `full_array` (array.py:6-28). `np.tile(a, k)` is `k` copies of `a`; `k = ceil(dimension / len(a))` is computed by
the code in floating point, here exactly. Multiplying ones by the scalar is exact. -/
def fullArray : ArrayArg → ℕ → Except PyErr (List Fl)
  | .scalar v, n => .ok (List.replicate n v)
  | .seq l, n =>
    if l.length = n then .ok l
    else if n < l.length then .ok (l.take n)
    else if l.length = 0 then .error .zeroDivisionError
    else .ok ((List.replicate ((n + l.length - 1) / l.length) l).flatten.take n)
  | .other, _ => .error .typeError

/-- `objects_to_array` (array.py:31-44): an array of `None`s filled position by position. -/
def objectsToArray {α : Type} (objs : List α) : List (Option α) :=
  (objs.zipIdx).foldl (fun a p => a.set p.2 (some p.1)) (List.replicate objs.length none)

end NiaPy
