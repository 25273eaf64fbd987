import Mathlib.Algebra.BigOperators.Fin
import Mathlib.Algebra.Order.BigOperators.Group.Finset
import Mathlib.Analysis.SpecialFunctions.Pow.Real
import Mathlib.Tactic.Linarith
import Mathlib.Tactic.Ring
import Mathlib.Tactic.FieldSimp
import Mathlib.Tactic.Positivity
import Mathlib.Tactic.NormNum

/-!
# Benchmarks without trigonometric functions (`niapy/problems`): C41, C43

The functions are modelled over the real numbers, for solutions of any dimension; rounding and overflow are not modelled.
Slices such as `x[1:]` and `x[:-1]` are written for dimension `n + 1`.
-/

namespace NiaPy.Bench
open Finset

variable {D n : ℕ}

/-- A solution of dimension `D`. -/
abbrev Sol (D : ℕ) := Fin D → ℝ

/-- `f` has the value `m` at `p` and is nowhere smaller. -/
def HasMin {D : ℕ} (f : Sol D → ℝ) (p : Sol D) (m : ℝ) : Prop := f p = m ∧ ∀ x, m ≤ f x

/-- `Sphere._evaluate` (sphere.py:72-73) -/
def sphere (x : Sol D) : ℝ := ∑ i, x i ^ 2
/-- `Sphere2._evaluate` (sphere.py:134-136) -/
def sphere2 (x : Sol D) : ℝ := ∑ i, |x i| ^ (i.1 + 2)
/-- `Sphere3._evaluate` (sphere.py:197-200): `np.tril` keeps the entries of column `c` in the rows from `c` on. -/
def sphere3 (x : Sol D) : ℝ := ∑ c : Fin D, ∑ r : Fin D, (if c ≤ r then x c else 0) ^ 2
/-- `SumSquares._evaluate` (sum_squares.py:71-72) -/
def sumSquares (x : Sol D) : ℝ := ∑ i, (i.1 + 1 : ℝ) * x i ^ 2
/-- `ChungReynolds._evaluate` (chung_reynolds.py:72-73) -/
def chungReynolds (x : Sol D) : ℝ := (∑ i, x i ^ 2) ^ 2
/-- `SchumerSteiglitz._evaluate` (schumer_steiglitz.py:72-73) -/
def schumerSteiglitz (x : Sol D) : ℝ := ∑ i, x i ^ 4
/-- `BentCigar._evaluate` (bent_cigar.py:71-72) -/
def bentCigar (x : Sol (n + 1)) : ℝ := x 0 ^ 2 + 1000000 * ∑ i : Fin n, x i.succ ^ 2
/-- `Ridge._evaluate` (ridge.py:70-72) -/
def ridge (x : Sol D) : ℝ := ∑ i : Fin D, (∑ j : Fin D, if j ≤ i then x j else 0) ^ 2
/-- `Zakharov._evaluate` (zakharov.py:70-73) -/
noncomputable def zakharov (x : Sol D) : ℝ :=
  let s1 := ∑ i, x i * x i
  let s2 := ∑ i : Fin D, 0.5 * (i.1 + 1 : ℝ) * x i
  s1 + s2 ^ 2 + s2 ^ 4
/-- `Schwefel221._evaluate` (schwefel.py:135-136) -/
noncomputable def schwefel221 (x : Sol (n + 1)) : ℝ := univ.sup' ⟨0, mem_univ 0⟩ fun i => |x i|
/-- `Schwefel222._evaluate` (schwefel.py:200-201) -/
noncomputable def schwefel222 (x : Sol D) : ℝ := (∑ i, |x i|) + ∏ i, |x i|
/-- `Step._evaluate` (step.py:75-76) -/
noncomputable def step (x : Sol D) : ℝ := ∑ i, (⌊|x i|⌋ : ℝ)
/-- `Step2._evaluate` (step.py:141-142) -/
noncomputable def step2 (x : Sol D) : ℝ := ∑ i, (⌊x i + 0.5⌋ : ℝ) ^ 2
/-- `Step3._evaluate` (step.py:207-208) -/
noncomputable def step3 (x : Sol D) : ℝ := ∑ i, (⌊x i ^ 2⌋ : ℝ)
/-- `Elliptic._evaluate` (elliptic.py:71-73), for at least two dimensions (for one dimension it divides by zero). -/
noncomputable def elliptic (x : Sol (n + 2)) : ℝ := ∑ i : Fin (n + 2), (1000000 : ℝ) ^ ((i.1 : ℝ) / (n + 1 : ℝ)) * x i ^ 2
/-- `Powell._evaluate` (powell.py:71-81), for dimensions divisible by 4 (otherwise the slices have different lengths and NumPy
raises). `x4 i` are the components `4 i`, `4 i + 1`, `4 i + 2`, `4 i + 3`. -/
def powell (x : Sol (4 * n)) : ℝ := ∑ i : Fin n,
  let c (k : Fin 4) : ℝ := x ⟨4 * i + k, by omega⟩
  ((c 0 + 10 * c 1) ^ 2 + 5 * (c 2 - c 3) ^ 2 + (c 1 - 2 * c 2) ^ 4 + 10 * (c 0 - c 3) ^ 4)
/-- `Rosenbrock._evaluate` (rosenbrock.py:74-75) -/
def rosenbrock (x : Sol (n + 1)) : ℝ := ∑ i : Fin n, (100 * (x i.succ - x i.castSucc ^ 2) ^ 2 + (1 - x i.castSucc) ^ 2)
/-- `Qing._evaluate` (qing.py:74-75) -/
def qing (x : Sol D) : ℝ := ∑ i : Fin D, (x i ^ 2 - (i.1 + 1 : ℝ)) ^ 2
/-- `Quintic._evaluate` (quintic.py:77-78) -/
noncomputable def quintic (x : Sol D) : ℝ := ∑ i, |x i ^ 5 - 3 * x i ^ 4 + 4 * x i ^ 3 + 2 * x i ^ 2 - 10 * x i - 4|
/-- `Perm._evaluate` (perm.py:72-77). The entry `(r, c)` of the matrix is `(c + 1 + beta) * (x_c ^ (c+1) - (1 / (c+1)) ^ (c+1))`:
it does not depend on the row, so this is not the function in the documentation. -/
noncomputable def perm (beta : ℝ) (x : Sol D) : ℝ := ∑ c : Fin D,
  (∑ _r : Fin D, (c.1 + 1 + beta) * (x c ^ (c.1 + 1) - (1 / (c.1 + 1 : ℝ)) ^ (c.1 + 1))) ^ 2
/-- `DixonPrice._evaluate` (dixon_price.py:71-74). The term with the first two components is missing. -/
def dixonPrice (x : Sol (n + 2)) : ℝ := (x 0 - 1) ^ 2 + ∑ i : Fin n, (i.1 + 2 : ℝ) * (2 * x i.succ.succ ^ 2 - x i.castSucc.succ) ^ 2
/-- `Trid._evaluate` (trid.py:71-74) -/
def trid (x : Sol (n + 1)) : ℝ := (∑ i, (x i - 1) ^ 2) - ∑ i : Fin n, x i.succ * x i.castSucc
/-- `Stepint._evaluate` (stepint.py:72-73) -/
noncomputable def stepint (x : Sol D) : ℝ := 25 + ∑ i, (⌊x i⌋ : ℝ)
/-- `StyblinskiTang._evaluate` (styblinski_tang.py:76-77) -/
noncomputable def styblinskiTang (x : Sol D) : ℝ := 0.5 * ∑ i, (x i ^ 4 - 16 * x i ^ 2 + 5 * x i)
/-- `Discus._evaluate` (discus.py:71-72): the first component is not squared. -/
def discus (x : Sol (n + 1)) : ℝ := x 0 * 1000000 + ∑ i : Fin n, x i.succ ^ 2
/-- `HappyCat._evaluate` (happy_cat.py:77-80): the absolute value is taken of every component, not of the sum. -/
noncomputable def happyCat (alpha : ℝ) (x : Sol D) : ℝ :=
  (∑ i, |x i * x i - D| ^ alpha) + (∑ i, (0.5 * x i * x i + x i) / D) + 0.5
/-- `HGBat._evaluate` (hgbat.py:70-73) -/
noncomputable def hgbat (x : Sol D) : ℝ :=
  let v1 := ∑ i, x i ^ 2
  let v2 := ∑ i, x i
  √|v1 * v1 - v2 ^ 2| + (0.5 * v1 + v2) / D + 0.5
/-- `Katsuura._evaluate` (katsuura.py:69-73); `round` is `np.round` (which is exact on integers). -/
noncomputable def katsuura (round : ℝ → ℝ) (x : Sol D) : ℝ :=
  ∏ i : Fin D, ((∑ k ∈ range 32, round (2 ^ (k + 1) * x i) * (1 / 2) ^ (k + 1)) * (i.1 + 1 : ℝ) + 1)

/-! ## C41 -/

theorem C41_sphere : HasMin (sphere (D := D)) 0 0 :=
  ⟨by simp [sphere], fun x => sum_nonneg fun i _ => sq_nonneg _⟩

theorem C41_sphere2 : HasMin (sphere2 (D := D)) 0 0 :=
  ⟨by simp [sphere2], fun x => sum_nonneg fun i _ => by positivity⟩

theorem C41_sphere3 : HasMin (sphere3 (D := D)) 0 0 :=
  ⟨by simp [sphere3], fun x => sum_nonneg fun i _ => sum_nonneg fun j _ => sq_nonneg _⟩

theorem C41_sumSquares : HasMin (sumSquares (D := D)) 0 0 :=
  ⟨by simp [sumSquares], fun x => sum_nonneg fun i _ => by positivity⟩

theorem C41_chungReynolds : HasMin (chungReynolds (D := D)) 0 0 :=
  ⟨by simp [chungReynolds], fun x => sq_nonneg _⟩

theorem C41_schumerSteiglitz : HasMin (schumerSteiglitz (D := D)) 0 0 :=
  ⟨by simp [schumerSteiglitz], fun x => sum_nonneg fun i _ => by positivity⟩

theorem C41_bentCigar : HasMin (bentCigar (n := n)) 0 0 :=
  ⟨by simp [bentCigar], fun x => add_nonneg (sq_nonneg _) (mul_nonneg (by norm_num) (sum_nonneg fun i _ => sq_nonneg _))⟩

theorem C41_ridge : HasMin (ridge (D := D)) 0 0 :=
  ⟨by simp [ridge], fun x => sum_nonneg fun i _ => sq_nonneg _⟩

theorem C41_zakharov : HasMin (zakharov (D := D)) 0 0 :=
  ⟨by simp [zakharov], fun x => by
    have : 0 ≤ ∑ i, x i * x i := sum_nonneg fun i _ => mul_self_nonneg _
    simp only [zakharov]
    positivity⟩

theorem C41_schwefel221 : HasMin (schwefel221 (n := n)) 0 0 := by
  refine ⟨?_, fun x => ?_⟩
  · simp only [schwefel221, Pi.zero_apply, abs_zero]
    exact Finset.sup'_const _ _
  · exact (abs_nonneg (x 0)).trans (Finset.le_sup' (fun i => |x i|) (mem_univ 0))

theorem C41_schwefel222 : HasMin (schwefel222 (D := D + 1)) 0 0 :=
  ⟨by simp [schwefel222, Finset.prod_const], fun x => add_nonneg (sum_nonneg fun i _ => abs_nonneg _) (prod_nonneg fun i _ => abs_nonneg _)⟩

theorem C41_step : HasMin (step (D := D)) 0 0 :=
  ⟨by simp [step], fun x => sum_nonneg fun i _ => by exact_mod_cast Int.floor_nonneg.2 (abs_nonneg _)⟩

/-- The documented minimiser of `Step2` is `-0.5`. -/
theorem C41_step2 : HasMin (step2 (D := D)) (fun _ => -0.5) 0 :=
  ⟨by simp [step2], fun x => sum_nonneg fun i _ => sq_nonneg _⟩

theorem C41_step3 : HasMin (step3 (D := D)) 0 0 :=
  ⟨by simp [step3], fun x => sum_nonneg fun i _ => by exact_mod_cast Int.floor_nonneg.2 (sq_nonneg (x i))⟩

theorem C41_elliptic : HasMin (elliptic (n := n)) 0 0 :=
  ⟨by simp [elliptic], fun x => sum_nonneg fun i _ => by positivity⟩

theorem C41_powell : HasMin (powell (n := n)) 0 0 :=
  ⟨by simp [powell], fun x => sum_nonneg fun i _ => by positivity⟩

theorem C41_rosenbrock : HasMin (rosenbrock (n := n)) 1 0 :=
  ⟨by simp [rosenbrock], fun x => sum_nonneg fun i _ => by positivity⟩

/-- All `2 ^ D` points whose components are square roots of `1, …, D` are minimisers. -/
theorem C41_qing (p : Sol D) (hp : ∀ i, p i ^ 2 = (i.1 + 1 : ℝ)) : HasMin (qing (D := D)) p 0 :=
  ⟨by simp [qing, hp], fun x => sum_nonneg fun i _ => sq_nonneg _⟩

example : ∃ p : Sol D, ∀ i, p i ^ 2 = (i.1 + 1 : ℝ) := ⟨fun i => √(i.1 + 1), fun i => Real.sq_sqrt (by positivity)⟩

theorem C41_quintic : HasMin (quintic (D := D)) (fun _ => -1) 0 :=
  ⟨by simp [quintic]; norm_num, fun x => sum_nonneg fun i _ => abs_nonneg _⟩

/-- `Perm` computes something else than documented, with the documented minimum. -/
theorem C41_perm (beta : ℝ) : HasMin (perm (D := D) beta) (fun i => 1 / (i.1 + 1 : ℝ)) 0 :=
  ⟨by simp [perm], fun x => sum_nonneg fun i _ => sq_nonneg _⟩

theorem C41_hgbat : HasMin (hgbat (D := n + 1)) (fun _ => -1) 0 := by
  refine ⟨?_, fun x => ?_⟩
  · simp only [hgbat]
    have h : (n : ℝ) + 1 ≠ 0 := by positivity
    have e : (n : ℝ) + 1 = (n + 1) * 1 := by ring
    simp
    have e : ((n : ℝ) + 1) * (n + 1) - (-1 + -(n : ℝ)) ^ 2 = 0 := by ring
    rw [e]
    field_simp
    simp
    ring
  · simp only [hgbat]
    have h1 : 0 ≤ ∑ i, (x i + 1) ^ 2 := sum_nonneg fun i _ => sq_nonneg _
    have h2 : ∑ i, (x i + 1) ^ 2 = (∑ i, x i ^ 2) + 2 * ∑ i, x i + ((n + 1 : ℕ) : ℝ) := by
      simp only [add_sq, sum_add_distrib, mul_one, one_pow, sum_const, card_univ, Fintype.card_fin, nsmul_eq_mul, ← mul_sum]
    have h3 : (0 : ℝ) < ((n + 1 : ℕ) : ℝ) := by positivity
    have h4 : (0.5 * ∑ i, x i ^ 2 + ∑ i, x i) / ((n + 1 : ℕ) : ℝ) + 0.5 = (∑ i, (x i + 1) ^ 2) / (2 * ((n + 1 : ℕ) : ℝ)) := by
      rw [h2]
      field_simp
      ring
    rw [add_assoc, h4]
    positivity

/-! ## C43 -/

/-- The minimiser of `Trid` in the numbering of the documentation. -/
def tridOpt (n i : ℕ) : ℝ := i * (n + 2 - i)

/-- `Trid` in terms of the difference from the documented minimiser. -/
theorem trid_shift (N : ℕ) (x : ℕ → ℝ) (n : ℕ) :
    (∑ i ∈ range (n + 1), (x i - 1) ^ 2) - ∑ i ∈ range n, x (i + 1) * x i =
      (∑ i ∈ range (n + 1), (tridOpt N (i + 1) - 1) ^ 2) - (∑ i ∈ range n, tridOpt N (i + 2) * tridOpt N (i + 1)) +
      ((∑ i ∈ range (n + 1), (x i - tridOpt N (i + 1)) ^ 2) -
        ∑ i ∈ range n, (x (i + 1) - tridOpt N (i + 2)) * (x i - tridOpt N (i + 1))) +
      (x n - tridOpt N (n + 1)) * tridOpt N (n + 2) := by
  induction n with
  | zero => simp [tridOpt]; ring
  | succ n ih =>
    rw [sum_range_succ (fun i => (x i - 1) ^ 2), sum_range_succ (fun i => x (i + 1) * x i),
      sum_range_succ (fun i => (tridOpt N (i + 1) - 1) ^ 2), sum_range_succ (fun i => tridOpt N (i + 2) * tridOpt N (i + 1)),
      sum_range_succ (fun i => (x i - tridOpt N (i + 1)) ^ 2),
      sum_range_succ (fun i => (x (i + 1) - tridOpt N (i + 2)) * (x i - tridOpt N (i + 1)))]
    have e : tridOpt N (n + 1) + tridOpt N (n + 3) = 2 * tridOpt N (n + 2) - 2 := by simp [tridOpt]; ring
    linear_combination ih - (x (n + 1) - tridOpt N (n + 2)) * e

theorem trid_form (d : ℕ → ℝ) (n : ℕ) :
    d n ^ 2 / 2 ≤ (∑ i ∈ range (n + 1), d i ^ 2) - ∑ i ∈ range n, d (i + 1) * d i := by
  induction n with
  | zero => simp; nlinarith [sq_nonneg (d 0)]
  | succ n ih =>
    rw [sum_range_succ (fun i => d i ^ 2), sum_range_succ (fun i => d (i + 1) * d i)]
    nlinarith [sq_nonneg (d (n + 1) - d n)]

theorem trid_value (N n : ℕ) : (∑ i ∈ range (n + 1), (tridOpt N (i + 1) - 1) ^ 2) - (∑ i ∈ range n, tridOpt N (i + 2) * tridOpt N (i + 1)) =
    -(∑ i ∈ range (n + 1), tridOpt N (i + 1)) + (n + 1) + tridOpt N (n + 1) * tridOpt N (n + 2) / 2 := by
  induction n with
  | zero => simp [tridOpt]; ring
  | succ n ih =>
    rw [sum_range_succ (fun i => (tridOpt N (i + 1) - 1) ^ 2), sum_range_succ (fun i => tridOpt N (i + 2) * tridOpt N (i + 1)),
      sum_range_succ (fun i => tridOpt N (i + 1))]
    have e : tridOpt N (n + 1) + tridOpt N (n + 3) = 2 * tridOpt N (n + 2) - 2 := by simp [tridOpt]; ring
    push_cast
    linear_combination ih - tridOpt N (n + 2) * e / 2

theorem trid_sum (N n : ℕ) : ∑ i ∈ range n, tridOpt N (i + 1) = (N + 2) * (n * (n + 1) / 2) - n * (n + 1) * (2 * n + 1) / 6 := by
  induction n with
  | zero => simp
  | succ n ih => rw [sum_range_succ, ih]; simp [tridOpt]; ring

theorem trid_range (x : Sol (n + 1)) : trid x =
    (∑ i ∈ range (n + 1), ((if h : i < n + 1 then x ⟨i, h⟩ else 0) - 1) ^ 2) -
      ∑ i ∈ range n, (if h : i + 1 < n + 1 then x ⟨i + 1, h⟩ else 0) * (if h : i < n + 1 then x ⟨i, h⟩ else 0) := by
  simp only [trid]
  rw [← Fin.sum_univ_eq_sum_range (fun i => ((if h : i < n + 1 then x ⟨i, h⟩ else 0) - 1) ^ 2),
    ← Fin.sum_univ_eq_sum_range (fun i => (if h : i + 1 < n + 1 then x ⟨i + 1, h⟩ else 0) * (if h : i < n + 1 then x ⟨i, h⟩ else 0))]
  congr 1
  · exact sum_congr rfl fun i _ => by rw [dif_pos i.2]
  · refine sum_congr rfl fun i _ => ?_
    rw [dif_pos (by omega), dif_pos (by omega)]
    rfl

/-- C43: `Trid` has the documented minimum `-D (D + 4) (D - 1) / 6` at the documented point `x_i = i (D + 1 - i)`. -/
theorem C43_trid : HasMin (trid (n := n)) (fun i => (i.1 + 1 : ℝ) * ((n + 1 : ℝ) + 1 - (i.1 + 1)))
    (-((n + 1 : ℝ) * ((n + 1) + 4) * ((n + 1) - 1)) / 6) := by
  have hv : (∑ i ∈ range (n + 1), (tridOpt n (i + 1) - 1) ^ 2) - (∑ i ∈ range n, tridOpt n (i + 2) * tridOpt n (i + 1)) =
      -((n + 1 : ℝ) * ((n + 1) + 4) * ((n + 1) - 1)) / 6 := by
    rw [trid_value, trid_sum]
    have : tridOpt n (n + 2) = 0 := by simp [tridOpt]
    rw [this]
    push_cast
    ring
  refine ⟨?_, fun x => ?_⟩
  · rw [trid_range, ← hv]
    congr 1
    · refine sum_congr rfl fun i hi => ?_
      rw [dif_pos (mem_range.1 hi)]
      simp only [tridOpt]
      push_cast
      ring
    · refine sum_congr rfl fun i hi => ?_
      have := mem_range.1 hi
      rw [dif_pos (by omega), dif_pos (by omega)]
      simp only [tridOpt]
      push_cast
      ring
  · rw [trid_range, trid_shift n, hv]
    have h0 : tridOpt n (n + 2) = 0 := by simp [tridOpt]
    have := trid_form (fun i => (if h : i < n + 1 then x ⟨i, h⟩ else 0) - tridOpt n (i + 1)) n
    rw [h0, mul_zero, add_zero]
    have h1 : 0 ≤ ((if h : n < n + 1 then x ⟨n, h⟩ else 0) - tridOpt n (n + 1)) ^ 2 / 2 := by positivity
    linarith

/-- C43: the smallest value of `Stepint` in the box `[-5.12, 5.12]` is `25 - 6 D`, at the documented point; the documented value
is 0. -/
theorem C43_stepint_partial : stepint (fun _ : Fin D => -5.12) = 25 - 6 * D ∧ ∀ x : Sol D, (∀ i, -5.12 ≤ x i) → 25 - 6 * (D : ℝ) ≤ stepint x := by
  have hf : ⌊(-5.12 : ℝ)⌋ = -6 := by rw [Int.floor_eq_iff]; norm_num
  refine ⟨?_, fun x hx => ?_⟩
  · simp only [stepint, hf]
    simp
    ring
  · have : ∑ i : Fin D, (-6 : ℝ) ≤ ∑ i, (⌊x i⌋ : ℝ) := sum_le_sum fun i _ => by
      have : (-6 : ℤ) ≤ ⌊x i⌋ := by rw [← hf]; exact Int.floor_le_floor (hx i)
      exact_mod_cast this
    simp only [stepint]
    simp at this
    linarith

/-- The documented optimum 0 of `Stepint` is wrong in every dimension. -/
theorem C43_stepint_false : stepint (fun _ : Fin D => -5.12) ≠ 0 := by
  rw [C43_stepint_partial.1]
  intro h
  have h : (25 : ℝ) = ((6 * D : ℕ) : ℝ) := by push_cast; linarith
  have h : 25 = 6 * D := by exact_mod_cast h
  omega

/-- C43: `StyblinskiTang` is bounded below by `-39.166166 D`, and the value at the documented point (to 9 digits) is below
`-39.166165 D`. -/
theorem C43_styblinskiTang : (∀ x : Sol D, -39.166166 * (D : ℝ) ≤ styblinskiTang x) ∧
    styblinskiTang (fun _ : Fin D => -2.903534018) ≤ -39.166165 * D := by
  constructor
  · intro x
    have : ∑ i : Fin D, (-78.332332 : ℝ) ≤ ∑ i, (x i ^ 4 - 16 * x i ^ 2 + 5 * x i) := sum_le_sum fun i _ => by
      nlinarith [sq_nonneg (x i ^ 2 - 8.430510), sq_nonneg (x i + 2.903534)]
    simp only [styblinskiTang]
    simp at this
    linarith
  · simp only [styblinskiTang, sum_const, card_univ, Fintype.card_fin, nsmul_eq_mul]
    have : (0.5 * ((-2.903534018 : ℝ) ^ 4 - 16 * (-2.903534018) ^ 2 + 5 * (-2.903534018))) ≤ -39.166165 := by norm_num
    have hD : (0 : ℝ) ≤ D := by positivity
    nlinarith

/-! ## C44 -/

/-- `DixonPrice` has the documented minimum at the documented point `x_i = 2 ^ (-(2^i - 2) / 2^i)`, here through the equations
that characterize it. -/
theorem C44_dixonPrice (p : Sol (n + 2)) (h0 : p 0 = 1) (hp : ∀ i : Fin n, 2 * p i.succ.succ ^ 2 = p i.castSucc.succ) :
    HasMin (dixonPrice (n := n)) p 0 :=
  ⟨by simp [dixonPrice, h0, hp], fun x => add_nonneg (sq_nonneg _) (sum_nonneg fun i _ => by positivity)⟩

/-- The documented point of `DixonPrice`: `x_i = 2 ^ (-(2^i - 2) / 2^i)`, `i` counted from 1 (dixon_price.py:30). -/
noncomputable def dixonPoint (D : ℕ) : Sol D := fun i => (2 : ℝ) ^ (-((2 : ℝ) ^ (i.1 + 1) - 2) / (2 : ℝ) ^ (i.1 + 1))

/-- It satisfies the equations: the documented value 0 is attained there and is the minimum. -/
theorem C44_dixonPrice_point : HasMin (dixonPrice (n := n)) (dixonPoint (n + 2)) 0 := by
  refine C44_dixonPrice _ ?_ fun i => ?_
  · simp [dixonPoint]
  · simp only [dixonPoint, Fin.val_succ, Fin.val_castSucc]
    rw [← Real.rpow_natCast, ← Real.rpow_mul (by norm_num)]
    nth_rewrite 1 [← Real.rpow_one 2]
    rw [← Real.rpow_add (by norm_num)]
    congr 1
    have h : (2 : ℝ) ^ (i.1 + 1 + 1) ≠ 0 := by positivity
    field_simp
    push_cast
    ring

/-- In two dimensions `DixonPrice` does not depend on the second component: it is not the documented function, whose value is
`(x1 - 1)^2 + 2 (2 x2^2 - x1)^2`. -/
theorem C44_dixonPrice_false : ∃ x : Sol 2, dixonPrice (n := 0) x ≠ (x 0 - 1) ^ 2 + 2 * (2 * x 1 ^ 2 - x 0) ^ 2 :=
  ⟨![1, 0], by simp [dixonPrice]⟩

/-- `Discus` takes negative values within its bounds. -/
theorem C44_discus_false : discus (n := n) 0 = 0 ∧ ∃ x : Sol (n + 1), (∀ i, -100 ≤ x i ∧ x i ≤ 100) ∧ discus x < 0 := by
  refine ⟨by simp [discus], Function.update 0 0 (-1), fun i => ?_, ?_⟩
  · by_cases h : i = 0
    · subst h; simp; norm_num
    · simp [h]
  · simp [discus, Fin.succ_ne_zero]

/-- Within its bounds the minimum of `Discus` is `-10 ^ 8`, at `(-100, 0, …, 0)`. -/
theorem C44_discus_partial : discus (n := n) (Fin.cons (-100) 0) = -100000000 ∧
    (∀ i, -100 ≤ (Fin.cons (-100) 0 : Sol (n + 1)) i ∧ (Fin.cons (-100) 0 : Sol (n + 1)) i ≤ 100) ∧
    ∀ x : Sol (n + 1), (∀ i, -100 ≤ x i ∧ x i ≤ 100) → -100000000 ≤ discus x := by
  refine ⟨by simp [discus]; norm_num, fun i => ?_, fun x hx => ?_⟩
  · refine Fin.cases ?_ (fun j => ?_) i <;> simp <;> norm_num
  · have h : 0 ≤ ∑ i : Fin n, x i.succ ^ 2 := sum_nonneg fun i _ => sq_nonneg _
    have := (hx 0).1
    unfold discus
    linarith

/-- In one dimension `HappyCat` has the documented minimum 0 at the documented point. -/
theorem C44_happyCat_one : HasMin (happyCat (D := 1) 0.25) (fun _ => -1) 0 := by
  refine ⟨?_, fun x => ?_⟩
  · have : (0 : ℝ) ^ (0.25 : ℝ) = 0 := Real.zero_rpow (by norm_num)
    simp [happyCat, this]
    norm_num
  · have h : 0 ≤ |x 0 * x 0 - 1| ^ (0.25 : ℝ) := Real.rpow_nonneg (abs_nonneg _) _
    simp only [happyCat, univ_unique, Fin.default_eq_zero, sum_singleton, Nat.cast_one]
    nlinarith [sq_nonneg (x 0 + 1)]

/-- `HappyCat` is not 0 at the documented point, except in one dimension. -/
theorem C44_happyCat_false : 0 < happyCat (D := n + 2) 0.25 (fun _ => -1) := by
  have h : |(-1 : ℝ) * -1 - ((n + 2 : ℕ) : ℝ)| = n + 1 := by
    rw [abs_of_nonpos] <;> push_cast <;> linarith [Nat.cast_nonneg (α := ℝ) n]
  have hn : (0 : ℝ) < (n : ℝ) + 1 := by positivity
  have hp : 0 < ((n : ℝ) + 1) ^ (0.25 : ℝ) := Real.rpow_pos_of_pos hn _
  simp only [happyCat, h, sum_const, card_univ, Fintype.card_fin, nsmul_eq_mul]
  have h3 : ((n + 2 : ℕ) : ℝ) * ((0.5 * -1 * -1 + -1) / ((n + 2 : ℕ) : ℝ)) = -0.5 := by
    have : ((n + 2 : ℕ) : ℝ) ≠ 0 := by positivity
    field_simp
    norm_num
  rw [h3]
  have : 0 < ((n + 2 : ℕ) : ℝ) * ((n : ℝ) + 1) ^ (0.25 : ℝ) := by positivity
  linarith

/-- `Katsuura` is 1 at the documented point but not at least 1 within its bounds. -/
theorem C44_katsuura_false (round : ℝ → ℝ) (hr : ∀ k : ℤ, round k = k) :
    katsuura (D := D) round 0 = 1 ∧ ∃ x : Sol 1, (∀ i, -100 ≤ x i ∧ x i ≤ 100) ∧ katsuura round x < 0 := by
  constructor
  · have : round 0 = 0 := by simpa using hr 0
    simp [katsuura, this]
  · refine ⟨fun _ => -1, fun _ => by norm_num, ?_⟩
    have h : ∀ k : ℕ, round (2 ^ (k + 1) * -1) = -2 ^ (k + 1) := fun k => by
      have := hr (-2 ^ (k + 1))
      push_cast at this
      rw [mul_neg, mul_one]
      exact this
    have h2 : ∀ k : ℕ, -(2 : ℝ) ^ (k + 1) * (1 / 2) ^ (k + 1) = -1 := fun k => by
      rw [neg_mul, ← mul_pow]; norm_num
    simp only [katsuura, h, h2, Fin.prod_univ_one]
    simp

end NiaPy.Bench
