import Verif.Prog
import Mathlib.Algebra.BigOperators.Fin
import Mathlib.Analysis.SpecialFunctions.Pow.Real
import Mathlib.Analysis.SpecialFunctions.Log.Base
import Mathlib.Analysis.SpecialFunctions.Trigonometric.Basic

/-!
# Arrays of real numbers with the shape rules of NumPy

The benchmarks (`niapy/problems`) are written with NumPy arrays. Here the operations they use are defined with the rules for shapes: operands
are broadcast, and shapes that do not fit raise `ValueError`. Entries are real numbers, or `none` where NumPy computes NaN or an infinite number from
numbers: division by zero, square roots of negative numbers, and so on. Rounding and overflow are not modelled.

Every array is a matrix. A number is a matrix with one entry and an array with one axis is a matrix with one row (broadcasting treats them so).
-/

namespace NiaPy.Bench.Np
open Finset
open scoped Classical

/-- A real number, or NaN or infinite. -/
abbrev Num := Option ℝ

/-- An array. -/
structure Nd where
  r : ℕ
  c : ℕ
  f : Fin r → Fin c → Num

/-- An entry. -/
def Nd.get (a : Nd) (i j : ℕ) : Num := if h : i < a.r ∧ j < a.c then a.f ⟨i, h.1⟩ ⟨j, h.2⟩ else none

/-- The result of an expression: an array, or an exception. -/
def V := Except PyErr Nd

/-- The array with the entries `u`, all of them numbers. -/
def arr (r c : ℕ) (u : Fin r → Fin c → ℝ) : V := .ok ⟨r, c, fun i j => some (u i j)⟩

/-- An array with one axis. -/
def vec {n : ℕ} (x : Fin n → ℝ) : V := arr 1 n fun _ => x

/-- A number. -/
def num (q : ℝ) : V := arr 1 1 fun _ _ => q

/-- The common length of two axes. -/
def bc (m n : ℕ) : Option ℕ := if m = 1 then some n else if n = 1 then some m else if m = n then some m else none

/-- The index along an axis of length `m` for the index `i` of the result. -/
def ix (m i : ℕ) : ℕ := if m = 1 then 0 else i

/-- An operation on numbers that is defined if `P` holds. -/
noncomputable def part (P : ℝ → ℝ → Prop) (g : ℝ → ℝ → ℝ) (a b : ℝ) : Num := if P a b then some (g a b) else none

/-- A binary ufunc with broadcasting. -/
def Nd.zip (op : ℝ → ℝ → Num) (a b : Nd) : V :=
  match bc a.r b.r with
  | none => .error .valueError
  | some r =>
    match bc a.c b.c with
    | none => .error .valueError
    | some c => .ok ⟨r, c, fun i j => (a.get (ix a.r i) (ix a.c j)).bind fun s => (b.get (ix b.r i) (ix b.c j)).bind fun t => op s t⟩

@[inherit_doc Nd.zip]
def lift2 (op : ℝ → ℝ → Num) (a b : V) : V :=
  match a with
  | .error e => .error e
  | .ok a =>
    match b with
    | .error e => .error e
    | .ok b => a.zip op b

/-- A unary ufunc. -/
def lift1 (op : ℝ → Num) (a : V) : V :=
  match a with
  | .ok a => .ok ⟨a.r, a.c, fun i j => (a.f i j).bind op⟩
  | .error e => .error e

/-- Where the power of real numbers is defined: positive base, or integer exponent, not a negative power of 0. -/
def PowOk (a b : ℝ) : Prop := 0 < a ∨ (a = 0 ∧ 0 ≤ b) ∨ (a ≠ 0 ∧ ∃ n : ℤ, b = n)

noncomputable instance : Add V := ⟨lift2 (part (fun _ _ => True) (· + ·))⟩
noncomputable instance : Sub V := ⟨lift2 (part (fun _ _ => True) (· - ·))⟩
noncomputable instance : Mul V := ⟨lift2 (part (fun _ _ => True) (· * ·))⟩
noncomputable instance : Div V := ⟨lift2 (part (fun _ b => b ≠ 0) (· / ·))⟩
noncomputable instance : Neg V := ⟨lift1 fun a => some (-a)⟩
noncomputable instance (n : ℕ) : OfNat V n := ⟨num n⟩
noncomputable instance : OfScientific V := ⟨fun m s e => num (OfScientific.ofScientific m s e)⟩

/-- `a ** b`, `np.power(a, b)` -/
noncomputable def power (a b : V) : V := lift2 (part PowOk (· ^ ·)) a b
/-- `np.fmod` -/
noncomputable def fmodV (fmod : ℝ → ℝ → ℝ) (a b : V) : V := lift2 (part (fun _ b => b ≠ 0) fmod) a b

@[inherit_doc power] scoped infixr:75 " ** " => power

/-- `np.sin`, `np.cos`, `np.exp`, `np.abs`, `np.floor`, `np.round`: a function defined everywhere. -/
def fn (g : ℝ → ℝ) (a : V) : V := lift1 (fun t => some (g t)) a
/-- `np.sqrt`: NaN for negative numbers. -/
noncomputable def sqrt (a : V) : V := lift1 (fun t => if 0 ≤ t then some (√t) else none) a
/-- `np.log10`: NaN for negative numbers, infinite for 0. -/
noncomputable def log10 (a : V) : V := lift1 (fun t => if 0 < t then some (Real.logb 10 t) else none) a

/-- All entries, if they are numbers. -/
noncomputable def Nd.total (a : Nd) (k : (Fin a.r → Fin a.c → ℝ) → ℝ) : Num :=
  if ∀ i j, (a.f i j).isSome then some (k fun i j => (a.f i j).getD 0) else none

/-- `np.sum(a)` -/
noncomputable def sum (a : V) : V :=
  match a with
  | .ok a => .ok ⟨1, 1, fun _ _ => a.total fun u => ∑ i, ∑ j, u i j⟩
  | .error e => .error e

/-- `np.prod(a)` -/
noncomputable def prod (a : V) : V :=
  match a with
  | .ok a => .ok ⟨1, 1, fun _ _ => a.total fun u => ∏ i, ∏ j, u i j⟩
  | .error e => .error e

/-- `np.sum(a, axis=0)` for an array with two axes. -/
noncomputable def sum0 (a : V) : V :=
  match a with
  | .ok a => .ok ⟨1, a.c, fun _ j => if ∀ i, (a.f i j).isSome then some (∑ i, (a.f i j).getD 0) else none⟩
  | .error e => .error e

/-- `np.amax(a)` for an array with one axis; `ValueError` if it is empty. -/
noncomputable def amax (a : V) : V :=
  match a with
  | .ok a => if h : 0 < a.r ∧ 0 < a.c then
      .ok ⟨1, 1, fun _ _ => a.total fun u => univ.sup' ⟨⟨0, h.2⟩, mem_univ _⟩ fun j => u ⟨0, h.1⟩ j⟩
    else .error .valueError
  | .error e => .error e

/-- `a[s:e:st]` for an array with one axis, with `0 <= s`, `0 <= e`, `0 < st`. -/
def slice (s e st : ℕ) (a : V) : V :=
  match a with
  | .ok a => .ok ⟨1, (min e a.c - s + (st - 1)) / st, fun _ j => a.get 0 (s + st * j)⟩
  | .error e => .error e

/-- The length of an array with one axis, for slices that end there or count from there. -/
def size (a : V) : ℕ :=
  match a with
  | .ok a => a.c
  | .error _ => 0

/-- `a[k:]` -/
def «from» (k : ℕ) (a : V) : V := slice k (size a) 1 a
/-- `a[:-1]` -/
def init (a : V) : V := slice 0 (size a - 1) 1 a
/-- `a[k::st]` -/
def every (k st : ℕ) (a : V) : V := slice k (size a) st a

/-- `a[k]` for an array with one axis. -/
def item (k : ℕ) (a : V) : V :=
  match a with
  | .ok a => if k < a.c then .ok ⟨1, 1, fun _ _ => a.get 0 k⟩ else .error .indexError
  | .error e => .error e

/-- `a[-1]` -/
def lastItem (a : V) : V :=
  match a with
  | .ok a => if 0 < a.c then .ok ⟨1, 1, fun _ _ => a.get 0 (a.c - 1)⟩ else .error .indexError
  | .error e => .error e

/-- `np.arange(a, b)` -/
def arange (a b : ℕ) : V := vec (n := b - a) fun j => ((a + j.1 : ℕ) : ℝ)

/-- `np.roll(a, k)` for an array with one axis. -/
def roll (k : ℤ) (a : V) : V :=
  match a with
  | .ok a => .ok ⟨1, a.c, fun _ j => a.get 0 (((j.1 : ℤ) - k) % a.c).toNat⟩
  | .error e => .error e

/-- `np.tile(a, (n, 1))` for an array with one axis. -/
def tile (n : ℕ) (a : V) : V :=
  match a with
  | .ok a => .ok ⟨n, a.c, fun _ j => a.get 0 j⟩
  | .error e => .error e

/-- `a.T` for an array with two axes. -/
def T (a : V) : V :=
  match a with
  | .ok a => .ok ⟨a.c, a.r, fun i j => a.f j i⟩
  | .error e => .error e

/-- `np.tril(a)` -/
def tril (a : V) : V :=
  match a with
  | .ok a => .ok ⟨a.r, a.c, fun i j => if j.1 ≤ i.1 then a.f i j else some 0⟩
  | .error e => .error e

/-- `a[mask]` for an array with one axis, where `mask` tells which numbers to take (a NaN is unequal to 0 and would be taken). -/
noncomputable def mask (p : ℝ → Prop) (a : V) : V :=
  match a with
  | .ok a =>
    let l := ((List.finRange a.c).map fun j : Fin a.c => a.get 0 j.1).filter fun v => match v with
      | some t => decide (p t)
      | none => true
    .ok ⟨1, l.length, fun _ j => l.get j⟩
  | .error e => .error e

/-- `np.array([g(i) for i in range(n)])` for numbers `g(i)`. -/
def collect (n : ℕ) (g : ℕ → V) : V :=
  match (List.range n).mapM (m := Except PyErr) fun i => (g i : Except PyErr Nd) with
  | .ok l => .ok ⟨1, n, fun _ j => (l[j.1]?.map fun a => a.get 0 0).getD none⟩
  | .error e => .error e

/-- `np.select([x > s, x < t], [a, b], default=d)` for arrays with one axis of the same length. (All choices are computed for every entry.) -/
noncomputable def select (s t : ℝ) (x a b d : V) : V :=
  match x, a, b, d with
  | .ok x, .ok a, .ok b, .ok d =>
    if a.c = x.c ∧ b.c = x.c ∧ d.c = x.c then
      .ok ⟨1, x.c, fun _ j => (x.get 0 j).bind fun v => if s < v then a.get 0 j else if v < t then b.get 0 j else d.get 0 j⟩
    else .error .valueError
  | .error e, _, _, _ => .error e
  | _, .error e, _, _ => .error e
  | _, _, .error e, _ => .error e
  | _, _, _, .error e => .error e

/-! ### Rules -/

variable {r c n : ℕ}

theorem nd_ext {a b : Nd} (hr : a.r = b.r) (hc : a.c = b.c) (h : ∀ i j, i < a.r → j < a.c → a.get i j = b.get i j) : a = b := by
  obtain ⟨r, c, f⟩ := a
  obtain ⟨r', c', g⟩ := b
  cases hr; cases hc
  congr 1
  funext i j
  have := h i j i.2 j.2
  simpa [Nd.get] using this

/-- Two results with the same shape and the same entries. -/
theorem ok_ext {a b : Nd} (hr : a.r = b.r) (hc : a.c = b.c) (h : ∀ i j, i < a.r → j < a.c → a.get i j = b.get i j) : (Except.ok a : V) = .ok b := by
  rw [nd_ext hr hc h]

@[simp] theorem get_mk (f : Fin r → Fin c → Num) (i j : ℕ) (hi : i < r) (hj : j < c) : Nd.get ⟨r, c, f⟩ i j = f ⟨i, hi⟩ ⟨j, hj⟩ := by
  simp [Nd.get, hi, hj]

section bin
variable {P : ℝ → ℝ → Prop} {g : ℝ → ℝ → ℝ}

theorem bc_self (m : ℕ) : bc m m = some m := by
  unfold bc; split
  · rfl
  · simp

theorem bc_left (m : ℕ) : bc 1 m = some m := by simp [bc]
theorem bc_right (m : ℕ) : bc m 1 = some m := by
  unfold bc; split
  · simp [*]
  · simp

theorem ix_self {m i : ℕ} (h : i < m) : ix m i = i := by
  unfold ix; split <;> omega

theorem ix_one (i : ℕ) : ix 1 i = 0 := by simp [ix]

/-- How broadcasting works on numbers. -/
theorem lift2_arr {r1 c1 r2 c2 : ℕ} {u : Fin r1 → Fin c1 → ℝ} {w : Fin r2 → Fin c2 → ℝ} (hr : bc r1 r2 = some r) (hc : bc c1 c2 = some c)
    (p : Fin r → Fin r1) (q : Fin c → Fin c1) (p' : Fin r → Fin r2) (q' : Fin c → Fin c2)
    (hp : ∀ i, (p i).1 = ix r1 i) (hq : ∀ i, (q i).1 = ix c1 i) (hp' : ∀ i, (p' i).1 = ix r2 i) (hq' : ∀ i, (q' i).1 = ix c2 i)
    (hP : ∀ i j, P (u (p i) (q j)) (w (p' i) (q' j))) :
    lift2 (part P g) (arr r1 c1 u) (arr r2 c2 w) = arr r c fun i j => g (u (p i) (q j)) (w (p' i) (q' j)) := by
  show Nd.zip _ ⟨r1, c1, fun i j => some (u i j)⟩ ⟨r2, c2, fun i j => some (w i j)⟩ = _
  simp only [Nd.zip, hr, hc]
  refine ok_ext rfl rfl fun i j hi hj => ?_
  have hi' : i < r := hi
  have hj' : j < c := hj
  have e1 := hp ⟨i, hi'⟩
  have e2 := hq ⟨j, hj'⟩
  have e3 := hp' ⟨i, hi'⟩
  have e4 := hq' ⟨j, hj'⟩
  dsimp only at e1 e2 e3 e4
  rw [get_mk _ _ _ hi' hj', get_mk _ _ _ hi' hj']
  dsimp only
  rw [← e1, ← e2, ← e3, ← e4, get_mk _ _ _ (p ⟨i, hi'⟩).2 (q ⟨j, hj'⟩).2, get_mk _ _ _ (p' ⟨i, hi'⟩).2 (q' ⟨j, hj'⟩).2]
  exact if_pos (hP ⟨i, hi'⟩ ⟨j, hj'⟩)

theorem same {u w : Fin r → Fin c → ℝ} (hP : ∀ i j, P (u i j) (w i j)) :
    lift2 (part P g) (arr r c u) (arr r c w) = arr r c fun i j => g (u i j) (w i j) :=
  lift2_arr (bc_self r) (bc_self c) id id id id (fun i => (ix_self i.2).symm) (fun i => (ix_self i.2).symm) (fun i => (ix_self i.2).symm)
    (fun i => (ix_self i.2).symm) hP

theorem left {u : Fin 1 → Fin 1 → ℝ} {w : Fin r → Fin c → ℝ} (hP : ∀ i j, P (u 0 0) (w i j)) :
    lift2 (part P g) (arr 1 1 u) (arr r c w) = arr r c fun i j => g (u 0 0) (w i j) :=
  lift2_arr (bc_left r) (bc_left c) (fun _ => 0) (fun _ => 0) id id (fun i => (ix_one i).symm) (fun i => (ix_one i).symm) (fun i => (ix_self i.2).symm)
    (fun i => (ix_self i.2).symm) hP

theorem right {u : Fin r → Fin c → ℝ} {w : Fin 1 → Fin 1 → ℝ} (hP : ∀ i j, P (u i j) (w 0 0)) :
    lift2 (part P g) (arr r c u) (arr 1 1 w) = arr r c fun i j => g (u i j) (w 0 0) :=
  lift2_arr (bc_right r) (bc_right c) id id (fun _ => 0) (fun _ => 0) (fun i => (ix_self i.2).symm) (fun i => (ix_self i.2).symm) (fun i => (ix_one i).symm)
    (fun i => (ix_one i).symm) hP

/-- A matrix and a row. -/
theorem matRow {u : Fin r → Fin c → ℝ} {w : Fin 1 → Fin c → ℝ} (hP : ∀ i j, P (u i j) (w 0 j)) :
    lift2 (part P g) (arr r c u) (arr 1 c w) = arr r c fun i j => g (u i j) (w 0 j) :=
  lift2_arr (bc_right r) (bc_self c) id id (fun _ => 0) id (fun i => (ix_self i.2).symm) (fun i => (ix_self i.2).symm) (fun i => (ix_one i).symm)
    (fun i => (ix_self i.2).symm) hP

/-- A column and a row. -/
theorem colRow {u : Fin r → Fin 1 → ℝ} {w : Fin 1 → Fin c → ℝ} (hP : ∀ i j, P (u i 0) (w 0 j)) :
    lift2 (part P g) (arr r 1 u) (arr 1 c w) = arr r c fun i j => g (u i 0) (w 0 j) :=
  lift2_arr (bc_right r) (bc_left c) id (fun _ => 0) (fun _ => 0) id (fun i => (ix_self i.2).symm) (fun i => (ix_one i).symm) (fun i => (ix_one i).symm)
    (fun i => (ix_self i.2).symm) hP

/-- A column and a matrix. -/
theorem colMat {u : Fin r → Fin 1 → ℝ} {w : Fin r → Fin c → ℝ} (hP : ∀ i j, P (u i 0) (w i j)) :
    lift2 (part P g) (arr r 1 u) (arr r c w) = arr r c fun i j => g (u i 0) (w i j) :=
  lift2_arr (bc_self r) (bc_left c) id (fun _ => 0) id id (fun i => (ix_self i.2).symm) (fun i => (ix_one i).symm) (fun i => (ix_self i.2).symm)
    (fun i => (ix_self i.2).symm) hP

/-- A matrix and a column. -/
theorem matCol {u : Fin r → Fin c → ℝ} {w : Fin r → Fin 1 → ℝ} (hP : ∀ i j, P (u i j) (w i 0)) :
    lift2 (part P g) (arr r c u) (arr r 1 w) = arr r c fun i j => g (u i j) (w i 0) :=
  lift2_arr (bc_self r) (bc_right c) id id id (fun _ => 0) (fun i => (ix_self i.2).symm) (fun i => (ix_self i.2).symm) (fun i => (ix_self i.2).symm)
    (fun i => (ix_one i).symm) hP

end bin

theorem add_def (a b : V) : a + b = lift2 (part (fun _ _ => True) (· + ·)) a b := rfl
theorem sub_def (a b : V) : a - b = lift2 (part (fun _ _ => True) (· - ·)) a b := rfl
theorem mul_def (a b : V) : a * b = lift2 (part (fun _ _ => True) (· * ·)) a b := rfl
theorem div_def (a b : V) : a / b = lift2 (part (fun _ b => b ≠ 0) (· / ·)) a b := rfl
theorem neg_arr (u : Fin r → Fin c → ℝ) : -arr r c u = arr r c fun i j => -u i j := rfl
theorem ofNat_def (n : ℕ) [n.AtLeastTwo] : (OfNat.ofNat n : V) = arr 1 1 fun _ _ => (OfNat.ofNat n : ℝ) := by
  rw [← Nat.cast_ofNat (R := ℝ)]; rfl
theorem one_def : (1 : V) = arr 1 1 fun _ _ => (1 : ℝ) := by
  rw [← Nat.cast_one (R := ℝ)]; rfl
theorem ofScientific_def (m : ℕ) (s : Bool) (e : ℕ) : (OfScientific.ofScientific m s e : V) = arr 1 1 fun _ _ => OfScientific.ofScientific m s e := rfl
theorem fn_arr (g : ℝ → ℝ) (u : Fin r → Fin c → ℝ) : fn g (arr r c u) = arr r c fun i j => g (u i j) := rfl

theorem sqrt_arr {u : Fin r → Fin c → ℝ} (h : ∀ i j, 0 ≤ u i j) : sqrt (arr r c u) = arr r c fun i j => √(u i j) := by
  simp only [sqrt, lift1, arr]
  congr 2; funext i j
  simp [h i j]

theorem log10_arr {u : Fin r → Fin c → ℝ} (h : ∀ i j, 0 < u i j) : log10 (arr r c u) = arr r c fun i j => Real.logb 10 (u i j) := by
  simp only [log10, lift1, arr]
  congr 2; funext i j
  simp [h i j]

theorem sum_arr (u : Fin r → Fin c → ℝ) : sum (arr r c u) = arr 1 1 fun _ _ => ∑ i, ∑ j, u i j := by
  simp [sum, arr, Nd.total]; rfl

theorem prod_arr (u : Fin r → Fin c → ℝ) : prod (arr r c u) = arr 1 1 fun _ _ => ∏ i, ∏ j, u i j := by
  simp [prod, arr, Nd.total]; rfl

theorem sum0_arr (u : Fin r → Fin c → ℝ) : sum0 (arr r c u) = arr 1 c fun _ j => ∑ i, u i j := by
  simp [sum0, arr]; rfl

theorem amax_arr (u : Fin 1 → Fin (n + 1) → ℝ) : amax (arr 1 (n + 1) u) = arr 1 1 fun _ _ => univ.sup' ⟨0, mem_univ 0⟩ fun j => u 0 j := by
  simp [amax, arr, Nd.total]; rfl

theorem tile_arr (k : ℕ) (u : Fin 1 → Fin c → ℝ) : tile k (arr 1 c u) = arr k c fun _ j => u 0 j := by
  simp [tile, arr]; rfl

theorem T_arr (u : Fin r → Fin c → ℝ) : T (arr r c u) = arr c r fun i j => u j i := rfl

theorem tril_arr (u : Fin r → Fin c → ℝ) : tril (arr r c u) = arr r c fun i j => if j.1 ≤ i.1 then u i j else 0 := by
  simp only [tril, arr]
  congr 2; funext i j
  split <;> rfl

theorem size_arr (u : Fin r → Fin c → ℝ) : size (arr r c u) = c := rfl

/-- Slices, for lengths known. -/
theorem slice_arr {s e st : ℕ} (u : Fin 1 → Fin c → ℝ) (p : Fin n → Fin c) (hn : (min e c - s + (st - 1)) / st = n) (hp : ∀ j, (p j).1 = s + st * j) :
    slice s e st (arr 1 c u) = arr 1 n fun _ j => u 0 (p j) := by
  refine ok_ext rfl hn fun i j hi hj => ?_
  have hj' : j < n := hn ▸ hj
  have hi' : i < 1 := hi
  simp only [get_mk _ _ _ hi' hj, get_mk _ _ _ hi' hj']
  have := hp ⟨j, hj'⟩
  simp only [← this, get_mk _ _ _ (by omega : 0 < 1) (p ⟨j, hj'⟩).2]
  rfl

theorem from_one (u : Fin 1 → Fin (n + 1) → ℝ) : «from» 1 (arr 1 (n + 1) u) = arr 1 n fun _ j => u 0 j.succ :=
  slice_arr u Fin.succ (by simp [size_arr]) fun j => by simp [Nat.add_comm]

theorem from_two (u : Fin 1 → Fin (n + 2) → ℝ) : «from» 2 (arr 1 (n + 2) u) = arr 1 n fun _ j => u 0 j.succ.succ :=
  slice_arr u (fun j => j.succ.succ) (by simp [size_arr]) fun j => by simp; omega

theorem init_arr (u : Fin 1 → Fin (n + 1) → ℝ) : init (arr 1 (n + 1) u) = arr 1 n fun _ j => u 0 j.castSucc :=
  slice_arr u Fin.castSucc (by simp [size_arr]) fun j => by simp

theorem item_arr {k : ℕ} (hk : k < c) (u : Fin 1 → Fin c → ℝ) : item k (arr 1 c u) = arr 1 1 fun _ _ => u 0 ⟨k, hk⟩ := by
  simp [item, arr, hk]; rfl

theorem item_zero (u : Fin 1 → Fin (n + 1) → ℝ) : item 0 (arr 1 (n + 1) u) = arr 1 1 fun _ _ => u 0 0 := item_arr (by omega) u
theorem item_one (u : Fin 1 → Fin (n + 2) → ℝ) : item 1 (arr 1 (n + 2) u) = arr 1 1 fun _ _ => u 0 1 := item_arr (by omega) u

theorem lastItem_arr (u : Fin 1 → Fin (n + 1) → ℝ) : lastItem (arr 1 (n + 1) u) = arr 1 1 fun _ _ => u 0 (Fin.last n) := by
  simp [lastItem, arr]
  rfl

theorem arange_def (a b : ℕ) : arange a b = arr 1 (b - a) fun _ j => ((a + j.1 : ℕ) : ℝ) := rfl

/-- `np.arange` with a length that is known. -/
theorem arange_arr {a b : ℕ} (h : b - a = n) : arange a b = arr 1 n fun _ j => (a + j.1 : ℝ) := by
  subst h; simp [arange_def]

theorem arange_zero (n : ℕ) : arange 0 n = arr 1 n fun _ j => (j.1 : ℝ) := by
  rw [arange_arr (n := n) (by omega)]; simp

theorem arange_one (n : ℕ) : arange 1 (n + 1) = arr 1 n fun _ j => ((j.1 + 1 : ℕ) : ℝ) := by
  rw [arange_arr (n := n) (by omega)]; simp [add_comm]

theorem arange_two (n : ℕ) : arange 2 (n + 2) = arr 1 n fun _ j => ((j.1 + 2 : ℕ) : ℝ) := by
  rw [arange_arr (n := n) (by omega)]; simp [add_comm]

theorem roll_one (u : Fin 1 → Fin (n + 1) → ℝ) : roll 1 (arr 1 (n + 1) u) = arr 1 (n + 1) fun _ j => u 0 (j - 1) := by
  refine ok_ext rfl rfl fun i j hi hj => ?_
  have hj' : j < n + 1 := hj
  have hi' : i < 1 := hi
  have h : ((((⟨j, hj'⟩ - 1 : Fin (n + 1)).1 : ℕ) : ℤ)) = ((j : ℤ) - 1) % ((n + 1 : ℕ) : ℤ) := by
    rw [Fin.coe_sub_one]
    split
    · rename_i h
      have : j = 0 := by simpa [Fin.ext_iff] using h
      subst this
      rw [← Int.add_emod_right, Int.emod_eq_of_lt (by push_cast; omega) (by push_cast; omega)]
      push_cast; ring
    · rename_i h
      have : j ≠ 0 := by simpa [Fin.ext_iff] using h
      rw [Int.emod_eq_of_lt (by omega) (by push_cast; omega)]
      have h1 : 1 ≤ j := by omega
      simp [h1]
  have h2 : (((j : ℤ) - 1) % ((n + 1 : ℕ) : ℤ)).toNat = (⟨j, hj'⟩ - 1 : Fin (n + 1)).1 := by rw [← h]; simp
  simp only [get_mk _ _ _ hi' hj', h2, get_mk _ _ _ (by omega : 0 < 1) (⟨j, hj'⟩ - 1 : Fin (n + 1)).2]
  rfl

theorem roll_neg (u : Fin 1 → Fin (n + 1) → ℝ) : roll (-1) (arr 1 (n + 1) u) = arr 1 (n + 1) fun _ j => u 0 (j + 1) := by
  refine ok_ext rfl rfl fun i j hi hj => ?_
  have hj' : j < n + 1 := hj
  have hi' : i < 1 := hi
  have h : ((((⟨j, hj'⟩ + 1 : Fin (n + 1)).1 : ℕ) : ℤ)) = ((j : ℤ) - -1) % ((n + 1 : ℕ) : ℤ) := by
    rw [Fin.val_add_one]
    split
    · rename_i h
      have : j = n := by simpa [Fin.ext_iff] using h
      subst this
      have : ((j : ℤ) - -1) = ((j + 1 : ℕ) : ℤ) := by push_cast; ring
      rw [this, Int.emod_self]; rfl
    · rename_i h
      have : j ≠ n := by simpa [Fin.ext_iff] using h
      rw [Int.emod_eq_of_lt (by omega) (by push_cast; omega)]
      push_cast; ring
  have h2 : (((j : ℤ) - -1) % ((n + 1 : ℕ) : ℤ)).toNat = (⟨j, hj'⟩ + 1 : Fin (n + 1)).1 := by rw [← h]; simp
  simp only [get_mk _ _ _ hi' hj', h2, get_mk _ _ _ (by omega : 0 < 1) (⟨j, hj'⟩ + 1 : Fin (n + 1)).2]
  rfl

theorem mapM_ok {α β : Type} {f : α → Except PyErr β} {g : α → β} (l : List α) (h : ∀ a ∈ l, f a = .ok (g a)) : l.mapM f = .ok (l.map g) := by
  induction l with
  | nil => rfl
  | cons a l ih =>
    rw [List.mapM_cons, h a (by simp), ih fun b hb => h b (by simp [hb])]
    rfl

theorem collect_num {g : ℕ → V} {q : Fin n → ℝ} (h : ∀ i : Fin n, g i = num (q i)) : collect n g = vec q := by
  have h' : (List.range n).mapM (m := Except PyErr) (fun i => (g i : Except PyErr Nd)) =
      .ok ((List.range n).map fun i => ⟨1, 1, fun _ _ => some (if hi : i < n then q ⟨i, hi⟩ else 0)⟩) :=
    mapM_ok _ fun i hi => by
      have hi := List.mem_range.1 hi
      rw [dif_pos hi]
      exact h ⟨i, hi⟩
  unfold collect
  rw [h']
  refine ok_ext rfl rfl fun i j hi hj => ?_
  have hj' : j < n := hj
  have hi' : i < 1 := hi
  simp [get_mk _ _ _ hi' hj', hj']

/-- The numbers that are taken, as a list. -/
theorem mask_arr (p : ℝ → Prop) (x : Fin n → ℝ) : mask p (vec x) =
    arr 1 ((List.ofFn x).filter fun t => decide (p t)).length fun _ j => ((List.ofFn x).filter fun t => decide (p t)).get j := by
  have h : ((List.finRange n).map fun j : Fin n => Nd.get ⟨1, n, fun _ j => some (x j)⟩ 0 j.1).filter (fun v => match v with
      | some t => decide (p t)
      | none => true) = ((List.ofFn x).filter fun t => decide (p t)).map some := by
    have e : (fun j : Fin n => Nd.get ⟨1, n, fun _ j => some (x j)⟩ 0 j.1) = some ∘ x := by
      funext j
      rw [get_mk _ _ _ (by omega : 0 < 1) j.2]
      rfl
    rw [e, List.ofFn_eq_map, ← List.map_map, List.filter_map]
    rfl
  have key : ∀ l : List Num, l = ((List.ofFn x).filter fun t => decide (p t)).map some →
      (Except.ok ⟨1, l.length, fun _ j => l.get j⟩ : V) = arr 1 ((List.ofFn x).filter fun t => decide (p t)).length
        fun _ j => ((List.ofFn x).filter fun t => decide (p t)).get j := by
    rintro _ rfl
    generalize (List.ofFn x).filter (fun t => decide (p t)) = l
    refine ok_ext rfl (List.length_map _) fun i j hi hj => ?_
    have hi' : i < 1 := hi
    have hj1 : j < (l.map some).length := hj
    have hj2 : j < l.length := by simpa using hj1
    rw [get_mk _ _ _ hi' hj1, get_mk _ _ _ hi' hj2]
    simp
  exact key _ h

theorem select_arr (s t : ℝ) (x a b d : Fin 1 → Fin n → ℝ) : select s t (arr 1 n x) (arr 1 n a) (arr 1 n b) (arr 1 n d) =
    arr 1 n fun _ j => if s < x 0 j then a 0 j else if x 0 j < t then b 0 j else d 0 j := by
  refine (if_pos (c := n = n ∧ n = n ∧ n = n) (α := Except PyErr Nd) ⟨rfl, rfl, rfl⟩).trans ?_
  refine ok_ext rfl rfl fun i j hi hj => ?_
  have hj' : j < n := hj
  have hi' : i < 1 := hi
  rw [get_mk _ _ _ hi' hj', get_mk _ _ _ hi' hj']
  simp only [get_mk _ _ _ (by omega : 0 < 1) hj', Option.bind_some]
  have z : (⟨0, by omega⟩ : Fin 1) = 0 := rfl
  rw [z]
  by_cases h1 : s < x 0 ⟨j, hj'⟩
  · simp only [h1, if_true]
  · by_cases h2 : x 0 ⟨j, hj'⟩ < t <;> simp only [h1, h2, if_true, if_false]

theorem powOk_nat (a : ℝ) (k : ℕ) : PowOk a (k : ℝ) := by
  rcases lt_trichotomy a 0 with h | h | h
  · exact .inr (.inr ⟨h.ne, k, by simp⟩)
  · exact .inr (.inl ⟨h, by positivity⟩)
  · exact .inl h

theorem powOk_ofNat (a : ℝ) (k : ℕ) [k.AtLeastTwo] : PowOk a (OfNat.ofNat k : ℝ) := by
  have := powOk_nat a k
  rwa [← Nat.cast_ofNat (R := ℝ)]

theorem powOk_pos {a : ℝ} (h : 0 < a) (b : ℝ) : PowOk a b := .inl h

theorem powOk_nonneg {a b : ℝ} (h : 0 ≤ a) (hb : 0 ≤ b) : PowOk a b := by
  rcases h.lt_or_eq with h | h
  · exact .inl h
  · exact .inr (.inl ⟨h.symm, hb⟩)

end NiaPy.Bench.Np
