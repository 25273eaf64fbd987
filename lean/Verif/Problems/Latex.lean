import Verif.Problems.Code
import Mathlib.Algebra.BigOperators.Intervals

/-!
# The formulas that `latex_code` returns: C89

Every problem class has a method `latex_code` that returns the definition of the function as a formula. Here the formulas are written down
as they stand there, on components `x 1`, ..., `x D` counted from 1, and compared with what `_evaluate` computes (`Verif.Problems.Code`).
-/

namespace NiaPy.Bench.Latex
open Finset Real Np

variable {D n : ℕ}

/-! ## The formulas -/

section formulas
variable (D : ℕ) (x : ℕ → ℝ)

/-- ackley.py:79-81 -/
noncomputable def ackley (a b c : ℝ) : ℝ :=
  -a * exp (-b * √(1 / D * ∑ i ∈ Icc 1 D, x i ^ 2)) - exp (1 / D * ∑ i ∈ Icc 1 D, cos (c * x i)) + a + exp 1
/-- alpine.py:70 -/
noncomputable def alpine1 : ℝ := ∑ i ∈ Icc 1 D, |x i * sin (x i) + 0.1 * x i|
/-- alpine.py:136 -/
noncomputable def alpine2 : ℝ := ∏ i ∈ Icc 1 D, √(x i) * sin (x i)
/-- bent_cigar.py:69 -/
def bentCigar : ℝ := x 1 ^ 2 + 10 ^ 6 * ∑ i ∈ Icc 2 D, x i ^ 2
/-- chung_reynolds.py:70 -/
def chungReynolds : ℝ := (∑ i ∈ Icc 1 D, x i ^ 2) ^ 2
/-- cosine_mixture.py:69 -/
noncomputable def cosineMixture : ℝ := -0.1 * (∑ i ∈ Icc 1 D, cos (5 * π * x i)) - ∑ i ∈ Icc 1 D, x i ^ 2
/-- csendes.py:71; a component 0 contributes nothing, since division by zero is zero in Lean. -/
noncomputable def csendes : ℝ := ∑ i ∈ Icc 1 D, x i ^ 6 * (2 + sin (1 / x i))
/-- discus.py:69 -/
def discus : ℝ := x 1 ^ 2 * 10 ^ 6 + ∑ i ∈ Icc 2 D, x i ^ 2
/-- dixon_price.py:69 -/
def dixonPrice : ℝ := (x 1 - 1) ^ 2 + ∑ i ∈ Icc 2 D, (i : ℝ) * (2 * x i ^ 2 - x (i - 1)) ^ 2
/-- elliptic.py:69 -/
noncomputable def elliptic : ℝ := ∑ i ∈ Icc 1 D, ((10 : ℝ) ^ 6) ^ (((i : ℝ) - 1) / ((D : ℝ) - 1)) * x i ^ 2
/-- griewank.py:72 -/
noncomputable def griewank : ℝ := (∑ i ∈ Icc 1 D, x i ^ 2 / 4000) - (∏ i ∈ Icc 1 D, cos (x i / √(i : ℝ))) + 1
/-- griewank.py:138 -/
noncomputable def expandedGriewank : ℝ :=
  let g (x y : ℝ) : ℝ := 100 * (x ^ 2 - y) ^ 2 + (x - 1) ^ 2
  let h (z : ℝ) : ℝ := z ^ 2 / 4000 - cos (z / √1) + 1
  h (g (x D) (x 1)) + ∑ i ∈ Icc 2 D, h (g (x (i - 1)) (x i))
/-- happy_cat.py:73-75 -/
noncomputable def happyCat : ℝ :=
  |(∑ i ∈ Icc 1 D, x i ^ 2) - D| ^ (1 / 4 : ℝ) + (0.5 * (∑ i ∈ Icc 1 D, x i ^ 2) + ∑ i ∈ Icc 1 D, x i) / D + 0.5
/-- hgbat.py:68 -/
noncomputable def hgbat : ℝ :=
  |(∑ i ∈ Icc 1 D, x i ^ 2) ^ 2 - (∑ i ∈ Icc 1 D, x i) ^ 2| ^ (1 / 2 : ℝ) + (0.5 * (∑ i ∈ Icc 1 D, x i ^ 2) + ∑ i ∈ Icc 1 D, x i) / D + 0.5
/-- katsuura.py:67 -/
noncomputable def katsuura (round : ℝ → ℝ) : ℝ := ∏ i ∈ Icc 1 D, (1 + i * ∑ j ∈ Icc 1 32, |2 ^ j * x i - round (2 ^ j * x i)| / 2 ^ j)
/-- levy.py:69 -/
noncomputable def levy : ℝ :=
  let w (i : ℕ) : ℝ := 1 + (x i - 1) / 4
  sin (π * w 1) ^ 2 + (∑ i ∈ Icc 1 (D - 1), (w i - 1) ^ 2 * (1 + 10 * sin (π * w i + 1) ^ 2)) + (w D - 1) ^ 2 * (1 + sin (2 * π * w D) ^ 2)
/-- michalewicz.py:73 -/
noncomputable def michalewicz (m : ℕ) : ℝ := -∑ i ∈ Icc 1 D, sin (x i) * sin (i * x i ^ 2 / π) ^ (2 * m)
/-- perm.py:70 -/
noncomputable def perm (beta : ℝ) : ℝ := ∑ i ∈ Icc 1 D, (∑ j ∈ Icc 1 D, ((j : ℝ) - beta) * (x j ^ i - 1 / (j : ℝ) ^ i)) ^ 2
/-- pinter.py:81-85. What `x_0` and `x_{D+1}` are is not said: they are arguments. -/
noncomputable def pinter : ℝ :=
  let A (i : ℕ) : ℝ := x (i - 1) * sin (x i) + sin (x (i + 1))
  let B (i : ℕ) : ℝ := x (i - 1) ^ 2 - 2 * x i + 3 * x (i + 1) - cos (x i) + 1
  (∑ i ∈ Icc 1 D, i * x i ^ 2) + (∑ i ∈ Icc 1 D, 20 * i * sin (A i) ^ 2) + ∑ i ∈ Icc 1 D, i * logb 10 (1 + i * B i ^ 2)
/-- powell.py:69 -/
def powell : ℝ := ∑ i ∈ Icc 1 (D / 4), ((x (4 * i - 3) + 10 * x (4 * i - 2)) ^ 2 + 5 * (x (4 * i - 1) - x (4 * i)) ^ 2 +
  (x (4 * i - 2) - 2 * x (4 * i - 1)) ^ 4 + 10 * (x (4 * i - 3) - x (4 * i)) ^ 4)
/-- qing.py:72 -/
def qing : ℝ := ∑ i ∈ Icc 1 D, (x i ^ 2 - i) ^ 2
/-- quintic.py:74-75 -/
noncomputable def quintic : ℝ := ∑ i ∈ Icc 1 D, |x i ^ 5 - 3 * x i ^ 4 + 4 * x i ^ 3 + 2 * x i ^ 2 - 10 * x i - 4|
/-- rastrigin.py:69 -/
noncomputable def rastrigin : ℝ := 10 * D + ∑ i ∈ Icc 1 D, (x i ^ 2 - 10 * cos (2 * π * x i))
/-- ridge.py:68 -/
def ridge : ℝ := ∑ i ∈ Icc 1 D, (∑ j ∈ Icc 1 i, x j) ^ 2
/-- rosenbrock.py:72 -/
def rosenbrock : ℝ := ∑ i ∈ Icc 1 (D - 1), (100 * (x (i + 1) - x i ^ 2) ^ 2 + (x i - 1) ^ 2)
/-- salomon.py:74-75 -/
noncomputable def salomon : ℝ := 1 - cos (2 * π * √(∑ i ∈ Icc 1 D, x i ^ 2)) + 0.1 * √(∑ i ∈ Icc 1 D, x i ^ 2)
/-- schaffer.py:67 -/
noncomputable def schafferN2 : ℝ := 0.5 + (sin (x 1 ^ 2 - x 2 ^ 2) ^ 2 - 0.5) / (1 + 0.001 * (x 1 ^ 2 + x 2 ^ 2)) ^ 2
/-- schaffer.py:129 -/
noncomputable def schafferN4 : ℝ := 0.5 + (cos (sin (x 1 ^ 2 - x 2 ^ 2)) ^ 2 - 0.5) / (1 + 0.001 * (x 1 ^ 2 + x 2 ^ 2)) ^ 2
/-- schaffer.py:196: the exponent 2 is at the fraction. -/
noncomputable def expandedSchaffer : ℝ :=
  let g (x y : ℝ) : ℝ := 0.5 + ((sin (√(x ^ 2 + y ^ 2)) ^ 2 - 0.5) / (1 + 0.001 * (x ^ 2 + y ^ 2))) ^ 2
  g (x D) (x 1) + ∑ i ∈ Icc 2 D, g (x (i - 1)) (x i)
/-- schaffer.py:196 with the exponent 2 at the denominator -/
noncomputable def expandedSchaffer' : ℝ :=
  let g (x y : ℝ) : ℝ := 0.5 + (sin (√(x ^ 2 + y ^ 2)) ^ 2 - 0.5) / (1 + 0.001 * (x ^ 2 + y ^ 2)) ^ 2
  g (x D) (x 1) + ∑ i ∈ Icc 2 D, g (x (i - 1)) (x i)
/-- schumer_steiglitz.py:70 -/
def schumerSteiglitz : ℝ := ∑ i ∈ Icc 1 D, x i ^ 4
/-- schwefel.py:68 -/
noncomputable def schwefel : ℝ := 418.9829 * D - ∑ i ∈ Icc 1 D, x i * sin (√|x i|)
/-- schwefel.py:133: `m` is the maximum. -/
def schwefel221 (m : ℝ) : Prop := (∃ i ∈ Icc 1 D, |x i| = m) ∧ ∀ i ∈ Icc 1 D, |x i| ≤ m
/-- schwefel.py:198 -/
noncomputable def schwefel222 : ℝ := (∑ i ∈ Icc 1 D, |x i|) + ∏ i ∈ Icc 1 D, |x i|
/-- schwefel.py:261, with `mod` for nonnegative numbers -/
noncomputable def modifiedSchwefel : ℝ :=
  let mod (a b : ℝ) : ℝ := a - b * ⌊a / b⌋
  let g (z : ℝ) : ℝ :=
    if |z| ≤ 500 then z * sin (|z| ^ (1 / 2 : ℝ))
    else if z > 500 then (500 - mod z 500) * sin (√|500 - mod z 500|) - (z - 500) ^ 2 / (10000 * D)
    else (mod |z| 500 - 500) * sin (√|mod |z| 500 - 500|) + (z - 500) ^ 2 / (10000 * D)
  let h (x : ℝ) : ℝ := g (x + 420.9687462275036)
  418.9829 * D - ∑ i ∈ Icc 1 D, h (x i)
/-- sphere.py:70 -/
def sphere : ℝ := ∑ i ∈ Icc 1 D, x i ^ 2
/-- sphere.py:132 -/
noncomputable def sphere2 : ℝ := ∑ i ∈ Icc 1 D, |x i| ^ (i + 1)
/-- sphere.py:195 -/
def sphere3 : ℝ := ∑ i ∈ Icc 1 D, ∑ j ∈ Icc 1 i, x j ^ 2
/-- step.py:73 -/
noncomputable def step : ℝ := ∑ i ∈ Icc 1 D, (⌊|x i|⌋ : ℝ)
/-- step.py:139 -/
noncomputable def step2 : ℝ := ∑ i ∈ Icc 1 D, (⌊x i + 0.5⌋ : ℝ) ^ 2
/-- step.py:205 -/
noncomputable def step3 : ℝ := ∑ i ∈ Icc 1 D, (⌊x i ^ 2⌋ : ℝ)
/-- stepint.py:70 -/
def stepint : ℝ := ∑ i ∈ Icc 1 D, x i ^ 2
/-- styblinski_tang.py:73-74 -/
noncomputable def styblinskiTang : ℝ := 1 / 2 * ∑ i ∈ Icc 1 D, (x i ^ 4 - 16 * x i ^ 2 + 5 * x i)
/-- sum_squares.py:69 -/
def sumSquares : ℝ := ∑ i ∈ Icc 1 D, i * x i ^ 2
/-- trid.py:69 -/
def trid : ℝ := (∑ i ∈ Icc 1 D, (x i - 1) ^ 2) - ∑ i ∈ Icc 2 D, x i * x (i - 1)
/-- weierstrass.py:74 -/
noncomputable def weierstrass (a : ℝ) (b kMax : ℕ) : ℝ :=
  (∑ i ∈ Icc 1 D, ∑ k ∈ Icc 0 kMax, a ^ k * cos (2 * π * (b : ℝ) ^ k * (x i + 0.5))) -
    D * ∑ k ∈ Icc 0 kMax, a ^ k * cos (2 * π * (b : ℝ) ^ k * 0.5)
/-- whitley.py:77-79 -/
noncomputable def whitley : ℝ := ∑ i ∈ Icc 1 D, ∑ j ∈ Icc 1 D,
  ((100 * (x i ^ 2 - x j) ^ 2 + (1 - x j) ^ 2) ^ 2 / 4000 - cos (100 * (x i ^ 2 - x j) ^ 2 + (1 - x j) ^ 2) + 1)
/-- zakharov.py:68 -/
noncomputable def zakharov : ℝ := (∑ i ∈ Icc 1 D, x i ^ 2) + (∑ i ∈ Icc 1 D, 0.5 * i * x i) ^ 2 + (∑ i ∈ Icc 1 D, 0.5 * i * x i) ^ 4

end formulas

/-! ## Components counted from 1 -/

/-- The components of a solution, counted from 1. -/
def one (x : Sol D) (i : ℕ) : ℝ := if h : i - 1 < D then x ⟨i - 1, h⟩ else 0

theorem one_succ (x : Sol D) (i : Fin D) : one x (i.1 + 1) = x i := by simp [one]
theorem one_castSucc (x : Sol (n + 1)) (i : Fin n) : one x (i.1 + 1) = x i.castSucc := one_succ x i.castSucc
theorem one_two (x : Sol (n + 1)) (i : Fin n) : one x (i.1 + 2) = x i.succ := one_succ x i.succ
theorem one_one (x : Sol (n + 1)) : one x 1 = x 0 := one_succ x 0
theorem one_last (x : Sol (n + 1)) : one x (n + 1) = x (Fin.last n) := one_succ x (Fin.last n)

theorem sum_one (f : ℕ → ℝ) (n : ℕ) : ∑ i ∈ Icc 1 n, f i = ∑ i : Fin n, f (i.1 + 1) := by
  rw [Fin.sum_univ_eq_sum_range (fun i => f (i + 1)), range_eq_Ico, sum_Ico_add' f 0 n 1]
  rfl
theorem prod_one (f : ℕ → ℝ) (n : ℕ) : ∏ i ∈ Icc 1 n, f i = ∏ i : Fin n, f (i.1 + 1) := by
  rw [Fin.prod_univ_eq_prod_range (fun i => f (i + 1)), range_eq_Ico, prod_Ico_add' f 0 n 1]
  rfl
theorem sum_two (f : ℕ → ℝ) (n : ℕ) : ∑ i ∈ Icc 2 (n + 1), f i = ∑ i : Fin n, f (i.1 + 2) := by
  rw [Fin.sum_univ_eq_sum_range (fun i => f (i + 2)), range_eq_Ico, sum_Ico_add' f 0 n 2]
  rfl

/-- Writes the sums of a formula over `Fin`. -/
macro "lx" : tactic => `(tactic| (congr 1; simp only [sum_one, prod_one, sum_two, one_succ, one_castSucc, one_two, one_one, one_last, Nat.add_sub_cancel]; try push_cast; try rfl))

/-! ## The ones that agree -/

theorem C89_sphere (x : Sol D) : Code.sphere (vec x) = num (sphere D (one x)) := by
  rw [Code.C88_sphere]; unfold sphere Bench.sphere; lx

theorem C89_sphere2 (x : Sol D) : Code.sphere2 D (vec x) = num (sphere2 D (one x)) := by
  rw [Code.C88_sphere2]; unfold sphere2 Bench.sphere2; lx

theorem C89_sumSquares (x : Sol D) : Code.sumSquares D (vec x) = num (sumSquares D (one x)) := by
  rw [Code.C88_sumSquares]; unfold sumSquares Bench.sumSquares; lx

theorem C89_chungReynolds (x : Sol D) : Code.chungReynolds (vec x) = num (chungReynolds D (one x)) := by
  rw [Code.C88_chungReynolds]; unfold chungReynolds Bench.chungReynolds; lx

theorem C89_schumerSteiglitz (x : Sol D) : Code.schumerSteiglitz (vec x) = num (schumerSteiglitz D (one x)) := by
  rw [Code.C88_schumerSteiglitz]; unfold schumerSteiglitz Bench.schumerSteiglitz; lx

theorem C89_bentCigar (x : Sol (n + 1)) : Code.bentCigar (vec x) = num (bentCigar (n + 1) (one x)) := by
  rw [Code.C88_bentCigar]; unfold bentCigar Bench.bentCigar; lx; norm_num

theorem C89_zakharov (x : Sol D) : Code.zakharov D (vec x) = num (zakharov D (one x)) := by
  rw [Code.C88_zakharov]; unfold zakharov Bench.zakharov; lx; simp only [sq]

theorem C89_schwefel221 (x : Sol (n + 1)) : ∃ m, Code.schwefel221 (vec x) = num m ∧ schwefel221 (n + 1) (one x) m := by
  refine ⟨_, Code.C88_schwefel221 x, ?_, fun i hi => ?_⟩
  · obtain ⟨j, -, hj⟩ := exists_mem_eq_sup' (⟨0, mem_univ 0⟩ : (univ : Finset (Fin (n + 1))).Nonempty) fun i => |x i|
    exact ⟨j.1 + 1, mem_Icc.2 ⟨by omega, by omega⟩, by rw [one_succ]; exact hj.symm⟩
  · obtain ⟨h1, h2⟩ := mem_Icc.1 hi
    have := one_succ x ⟨i - 1, by omega⟩
    rw [show i - 1 + 1 = i by omega] at this
    rw [this]
    exact le_sup' (fun i => |x i|) (mem_univ _)

theorem C89_schwefel222 (x : Sol D) : Code.schwefel222 (vec x) = num (schwefel222 D (one x)) := by
  rw [Code.C88_schwefel222]; unfold schwefel222 Bench.schwefel222; lx

theorem C89_step (x : Sol D) : Code.step (vec x) = num (step D (one x)) := by
  rw [Code.C88_step]; unfold step Bench.step; lx

theorem C89_step2 (x : Sol D) : Code.step2 (vec x) = num (step2 D (one x)) := by
  rw [Code.C88_step2]; unfold step2 Bench.step2; lx

theorem C89_step3 (x : Sol D) : Code.step3 (vec x) = num (step3 D (one x)) := by
  rw [Code.C88_step3]; unfold step3 Bench.step3; lx

theorem C89_rosenbrock (x : Sol (n + 1)) : Code.rosenbrock (vec x) = num (rosenbrock (n + 1) (one x)) := by
  rw [Code.C88_rosenbrock]; unfold rosenbrock Bench.rosenbrock; lx
  refine sum_congr rfl fun i _ => ?_
  ring

theorem C89_qing (x : Sol D) : Code.qing D (vec x) = num (qing D (one x)) := by
  rw [Code.C88_qing]; unfold qing Bench.qing; lx

theorem C89_quintic (x : Sol D) : Code.quintic (vec x) = num (quintic D (one x)) := by
  rw [Code.C88_quintic]; unfold quintic Bench.quintic; lx

theorem C89_trid (x : Sol (n + 1)) : Code.trid (vec x) = num (trid (n + 1) (one x)) := by
  rw [Code.C88_trid]; unfold trid Bench.trid; lx
  congr 1
  refine sum_congr rfl fun i _ => ?_
  rw [one_castSucc]

theorem C89_styblinskiTang (x : Sol D) : Code.styblinskiTang (vec x) = num (styblinskiTang D (one x)) := by
  rw [Code.C88_styblinskiTang]; unfold styblinskiTang Bench.styblinskiTang; lx; norm_num

theorem C89_hgbat (x : Sol (n + 1)) : Code.hgbat (n + 1) (vec x) = num (hgbat (n + 1) (one x)) := by
  rw [Code.C88_hgbat]; unfold hgbat Bench.hgbat; lx; rw [← sqrt_eq_rpow, sq (∑ i, x i ^ 2)]

theorem sum_le (f : Fin D → ℝ) (i : Fin D) : ∑ j : Fin (i.1 + 1), f (j.castLE i.2) = ∑ j : Fin D, if j ≤ i then f j else 0 := by
  let g : ℕ → ℝ := fun k => if hk : k < D then f ⟨k, hk⟩ else 0
  have e1 : ∀ j : Fin (i.1 + 1), f (j.castLE i.2) = g j := fun j => by
    have : j.1 < D := by omega
    simp only [g, this, dif_pos]; rfl
  have e2 : ∀ j : Fin D, (if j ≤ i then f j else 0) = if j.1 ≤ i.1 then g j else 0 := fun j => by
    simp only [g, j.2, dif_pos, Fin.le_def]
  simp only [e1, e2]
  rw [Fin.sum_univ_eq_sum_range g (i.1 + 1), Fin.sum_univ_eq_sum_range (fun k => if k ≤ i.1 then g k else 0) D, ← sum_filter]
  refine sum_congr ?_ fun _ _ => rfl
  ext k; simp only [mem_range, mem_filter]; omega

theorem C89_ridge (x : Sol D) : Code.ridge D (vec x) = num (ridge D (one x)) := by
  rw [Code.C88_ridge]; unfold ridge Bench.ridge; lx
  refine sum_congr rfl fun i _ => ?_
  rw [← sum_le x i]
  congr 1
  exact sum_congr rfl fun j _ => (one_succ x (j.castLE i.2)).symm

theorem C89_sphere3 (x : Sol D) : Code.sphere3 D (vec x) = num (sphere3 D (one x)) := by
  rw [Code.C88_sphere3]; unfold sphere3 Bench.sphere3; lx
  have h : ∀ i : Fin D, ∑ j : Fin (i.1 + 1), one x (j.1 + 1) ^ 2 = ∑ j : Fin D, if j ≤ i then x j ^ 2 else 0 := fun i => by
    rw [← sum_le (fun j => x j ^ 2) i]
    exact sum_congr rfl fun j _ => by rw [← one_succ x (j.castLE i.2)]; rfl
  simp only [h]
  rw [sum_comm]
  exact sum_congr rfl fun r _ => sum_congr rfl fun c _ => by split <;> simp

theorem C89_elliptic (x : Sol (n + 2)) : Code.elliptic (n + 2) (vec x) = num (elliptic (n + 2) (one x)) := by
  rw [Code.C88_elliptic]; unfold elliptic Bench.elliptic; lx
  refine sum_congr rfl fun i _ => ?_
  norm_num [add_sub_assoc]

theorem C89_powell (x : Sol (4 * n)) : Code.powell (vec x) = num (powell (4 * n) (one x)) := by
  rw [Code.C88_powell]; unfold powell Bench.powell; lx
  rw [Nat.mul_div_cancel_left n (by norm_num)]
  refine sum_congr rfl fun i _ => ?_
  have h (k : ℕ) (hk : k < 4) : one x (4 * i.1 + k + 1) = x ⟨4 * i + k, by omega⟩ := one_succ x ⟨4 * i + k, by omega⟩
  rw [show 4 * (i.1 + 1) - 3 = 4 * i.1 + 0 + 1 by omega, show 4 * (i.1 + 1) - 2 = 4 * i.1 + 1 + 1 by omega,
    show 4 * (i.1 + 1) - 1 = 4 * i.1 + 2 + 1 by omega, show 4 * (i.1 + 1) = 4 * i.1 + 3 + 1 by omega, h 0 (by omega), h 1 (by omega), h 2 (by omega),
    h 3 (by omega)]
  rfl

theorem C89_ackley (a b c : ℝ) (x : Sol (n + 1)) : Code.ackley (n + 1) a b c (vec x) = num (ackley (n + 1) (one x) a b c) := by
  rw [Code.C88_ackley]; unfold ackley Bench.ackley; lx
  rw [div_eq_inv_mul, div_eq_inv_mul, one_div]

theorem C89_alpine2 (x : Sol D) (hx : ∀ i, 0 ≤ x i) : Code.alpine2 (vec x) = num (alpine2 D (one x)) := by
  rw [Code.C88_alpine2 x hx]; unfold alpine2 Bench.alpine2; lx

theorem C89_csendes (x : Sol D) : Code.csendes (vec x) = num (csendes D (one x)) := by
  rw [Code.C88_csendes]; unfold csendes Bench.csendes; lx
  exact sum_congr rfl fun i _ => by split <;> simp_all

theorem C89_griewank (x : Sol D) : Code.griewank D (vec x) = num (griewank D (one x)) := by
  rw [Code.C88_griewank]; unfold griewank Bench.griewank; lx; simp only [sq]

theorem C89_michalewicz (m : ℕ) (x : Sol D) : Code.michalewicz D m (vec x) = num (michalewicz D (one x) m) := by
  rw [Code.C88_michalewicz]; unfold michalewicz Bench.michalewicz; lx

/-- With `x_0 = x_D` and `x_{D+1} = x_1`. -/
theorem C89_pinter (x : Sol (n + 1)) : Code.pinter (n + 1) (vec x) =
    num (pinter (n + 1) fun i => if i = 0 then one x (n + 1) else if i = n + 2 then one x 1 else one x i) := by
  rw [Code.C88_pinter]; unfold pinter Bench.pinter
  have h0 (i : Fin (n + 1)) : (if i.1 + 1 = 0 then one x (n + 1) else if i.1 + 1 = n + 2 then one x 1 else one x (i.1 + 1)) = x i := by
    rw [if_neg (by omega), if_neg (by omega), one_succ]
  have h1 (i : Fin (n + 1)) : (if i.1 + 1 - 1 = 0 then one x (n + 1) else if i.1 + 1 - 1 = n + 2 then one x 1 else one x (i.1 + 1 - 1)) = x (i - 1) := by
    refine Fin.cases ?_ (fun j => ?_) i
    · rw [if_pos (by simp), one_last, ← Fin.last_add_one, add_sub_cancel_right]
    · rw [if_neg (by simp), if_neg (by simp; omega), ← Fin.coeSucc_eq_succ, add_sub_cancel_right, ← one_castSucc x]
      simp
  have h2 (i : Fin (n + 1)) : (if i.1 + 1 + 1 = 0 then one x (n + 1) else if i.1 + 1 + 1 = n + 2 then one x 1 else one x (i.1 + 1 + 1)) = x (i + 1) := by
    rw [if_neg (by omega)]
    refine Fin.lastCases ?_ (fun j => ?_) i
    · rw [if_pos (by simp), one_one, Fin.last_add_one]
    · rw [if_neg (by simp; omega), Fin.coeSucc_eq_succ, ← one_two x]
      simp
  simp only [sum_one, h0, h1, h2]
  push_cast
  simp only [sq, mul_assoc]

theorem C89_rastrigin (x : Sol D) : Code.rastrigin D (vec x) = num (rastrigin D (one x)) := by
  rw [Code.C88_rastrigin]; unfold rastrigin Bench.rastrigin; lx; simp only [sq]

theorem C89_salomon (x : Sol D) : Code.salomon (vec x) = num (salomon D (one x)) := by
  rw [Code.C88_salomon]; unfold salomon Bench.salomon; lx

theorem C89_schafferN2 (x : Sol 2) : Code.schafferN2 (vec x) = num (schafferN2 (one x)) := by
  rw [Code.C88_schafferN2]; rfl

theorem C89_schafferN4 (x : Sol 2) : Code.schafferN4 (vec x) = num (schafferN4 (one x)) := by
  rw [Code.C88_schafferN4]; rfl

theorem C89_weierstrass (a : ℝ) (b kMax : ℕ) (x : Sol D) : Code.weierstrass D a b kMax (vec x) = num (weierstrass D (one x) a b kMax) := by
  rw [Code.C88_weierstrass]; unfold weierstrass Bench.weierstrass; lx
  have h : range (kMax + 1) = Icc 0 kMax := by ext; simp
  rw [h]
  congr 2
  exact sum_congr rfl fun k _ => by congr 2; ring

theorem C89_whitley (x : Sol D) : Code.whitley D (vec x) = num (whitley D (one x)) := by
  rw [Code.C88_whitley]; unfold whitley Bench.whitley; lx

theorem C89_cosineMixture (x : Sol D) : Code.cosineMixture (vec x) = num (cosineMixture D (one x)) := by
  rw [Code.C88_cosineMixture]; unfold cosineMixture Bench.cosineMixture; lx

/-- With the exponent at the denominator. -/
theorem C89_expandedSchaffer_partial (x : Sol (n + 1)) : Code.expandedSchaffer (vec x) = num (expandedSchaffer' (n + 1) (one x)) := by
  rw [Code.C88_expandedSchaffer]; unfold expandedSchaffer' Bench.expandedSchaffer
  simp only [Fin.sum_univ_castSucc, Fin.last_add_one, Fin.coeSucc_eq_succ]
  rw [add_comm]
  lx
  simp only [one_castSucc]

/-! ## The ones that do not -/

theorem num_inj {q r : ℝ} (h : num q = num r) : q = r := by
  have h1 : (⟨1, 1, fun _ _ => some q⟩ : Nd) = ⟨1, 1, fun _ _ => some r⟩ := Except.ok.inj h
  have h2 := congrArg (fun a => a.get 0 0) h1
  simpa using h2

theorem C89_alpine1_false (hD : 1 ≤ D) : ∃ x : Sol D, (∀ i, -10 ≤ x i ∧ x i ≤ 10) ∧ Code.alpine1 (vec x) ≠ num (alpine1 D (one x)) := by
  have h1 := pi_gt_three; have h2 := pi_lt_four
  refine ⟨fun _ => π / 2, fun i => ⟨by linarith, by linarith⟩, fun h => ?_⟩
  rw [Code.C88_alpine1] at h
  have := num_inj h
  unfold alpine1 Bench.alpine1 at this
  simp only [sum_one, one_succ, sin_pi_div_two, mul_one, sum_const, card_univ, Fintype.card_fin, nsmul_eq_mul] at this
  have hD' : (0 : ℝ) < D := by exact_mod_cast hD
  have := mul_left_cancel₀ hD'.ne' this
  rw [abs_of_pos (by positivity), abs_of_pos (by positivity)] at this
  linarith

theorem C89_discus_false (n : ℕ) : ∃ x : Sol (n + 1), (∀ i, -100 ≤ x i ∧ x i ≤ 100) ∧ Code.discus (vec x) ≠ num (discus (n + 1) (one x)) := by
  refine ⟨fun _ => 2, fun i => by norm_num, fun h => ?_⟩
  rw [Code.C88_discus] at h
  have := num_inj h
  unfold discus Bench.discus at this
  simp only [sum_two, one_one, one_two] at this
  norm_num at this

theorem C89_dixonPrice_false (n : ℕ) : ∃ x : Sol (n + 2), (∀ i, -10 ≤ x i ∧ x i ≤ 10) ∧
    Code.dixonPrice (n + 2) (vec x) ≠ num (dixonPrice (n + 2) (one x)) := by
  refine ⟨fun _ => 1, fun i => by norm_num, fun h => ?_⟩
  rw [Code.C88_dixonPrice] at h
  have := num_inj h
  unfold dixonPrice Bench.dixonPrice at this
  simp only [sum_two, one_one, one_two, show ∀ i, i + 2 - 1 = i + 1 from fun _ => rfl] at this
  simp only [one_castSucc, Fin.sum_univ_castSucc] at this
  norm_num at this
  linarith [this, (Nat.cast_nonneg n : (0 : ℝ) ≤ n)]

theorem C89_expandedGriewank_false (n : ℕ) : ∃ x : Sol (n + 2), (∀ i, -100 ≤ x i ∧ x i ≤ 100) ∧
    Code.expandedGriewank (n + 2) (vec x) ≠ num (expandedGriewank (n + 2) (one x)) := by
  refine ⟨fun _ => 1, fun i => by norm_num, fun h => ?_⟩
  rw [Code.C88_expandedGriewank] at h
  have := num_inj h
  unfold expandedGriewank Bench.expandedGriewank at this
  simp only [sum_two, one_one, one_two, one_last, show ∀ i, i + 2 - 1 = i + 1 from fun _ => rfl] at this
  simp only [one_castSucc] at this
  norm_num at this
  linarith [this, (Nat.cast_nonneg n : (0 : ℝ) ≤ n)]

theorem C89_happyCat_false (n : ℕ) : ∃ x : Sol (n + 2), (∀ i, -100 ≤ x i ∧ x i ≤ 100) ∧
    Code.happyCat (n + 2) 0.25 (vec x) ≠ num (happyCat (n + 2) (one x)) := by
  refine ⟨fun _ => 1, fun i => by norm_num, fun h => ?_⟩
  rw [Code.C88_happyCat (by norm_num)] at h
  have := num_inj h
  unfold happyCat Bench.happyCat at this
  simp only [sum_one, one_succ, sum_const, card_univ, Fintype.card_fin, nsmul_eq_mul, one_pow, mul_one, sub_self, abs_zero] at this
  rw [zero_rpow (by norm_num)] at this
  have hn : (0 : ℝ) < ((n + 2 : ℕ) : ℝ) := by positivity
  have h1 : 0 < ((n + 2 : ℕ) : ℝ) * |1 - ((n + 2 : ℕ) : ℝ)| ^ (0.25 : ℝ) := by
    refine mul_pos hn (rpow_pos_of_pos (abs_pos.2 ?_) _)
    push_cast
    have := (Nat.cast_nonneg n : (0 : ℝ) ≤ n)
    linarith
  have h2 : ((n + 2 : ℕ) : ℝ) * ((0.5 + 1) / ((n + 2 : ℕ) : ℝ)) = (0.5 * ((n + 2 : ℕ) : ℝ) + ((n + 2 : ℕ) : ℝ)) / ((n + 2 : ℕ) : ℝ) := by
    field_simp
  linarith

/-- `np.round` leaves whole numbers as they are. -/
theorem C89_katsuura_false {round : ℝ → ℝ} (hr : ∀ k : ℕ, round k = k) (hD : 1 ≤ D) : ∃ x : Sol D, (∀ i, -100 ≤ x i ∧ x i ≤ 100) ∧
    Code.katsuura D round (vec x) ≠ num (katsuura D (one x) round) := by
  refine ⟨fun _ => 1, fun i => by norm_num, fun h => ?_⟩
  rw [Code.C88_katsuura] at h
  have := num_inj h
  have hr' (k : ℕ) : round (2 ^ k) = 2 ^ k := by have := hr (2 ^ k); push_cast at this; exact this
  unfold katsuura Bench.katsuura at this
  simp only [prod_one, one_succ, mul_one, hr', sub_self, abs_zero, zero_div, sum_const_zero, mul_zero, add_zero, prod_const_one] at this
  have h1 : ∀ k : ℕ, (2 : ℝ) ^ (k + 1) * (1 / 2) ^ (k + 1) = 1 := fun k => by rw [← mul_pow]; norm_num
  simp only [h1, sum_const, card_range, nsmul_eq_mul, mul_one] at this
  have h2 : (1 : ℝ) < ∏ i : Fin D, (((32 : ℕ) : ℝ) * (i.1 + 1) + 1) := by
    have h3 : ∏ _i : Fin D, (2 : ℝ) ≤ ∏ i : Fin D, (((32 : ℕ) : ℝ) * (i.1 + 1) + 1) :=
      prod_le_prod (fun _ _ => by norm_num) fun i _ => by
        have := (Nat.cast_nonneg i.1 : (0 : ℝ) ≤ i.1)
        push_cast
        linarith
    rw [prod_const, card_univ, Fintype.card_fin] at h3
    exact lt_of_lt_of_le (one_lt_pow₀ (by norm_num) (by omega)) h3
  linarith

theorem C89_levy_false (n : ℕ) : ∃ x : Sol (n + 2), (∀ i, -10 ≤ x i ∧ x i ≤ 10) ∧ Code.levy (vec x) ≠ num (levy (n + 2) (one x)) := by
  refine ⟨fun _ => 5, fun i => by norm_num, fun h => ?_⟩
  rw [Code.C88_levy] at h
  have := num_inj h
  unfold levy Bench.levy at this
  simp only [show n + 2 - 1 = n + 1 from rfl, sum_one, one_castSucc, one_one, one_last, sum_const, card_univ, Fintype.card_fin, nsmul_eq_mul] at this
  have hn : (0 : ℝ) < ((n + 1 : ℕ) : ℝ) := by positivity
  have e : sin (π * (1 + (5 - 1) / 4) + 1) = sin 1 := by
    rw [show π * (1 + (5 - 1) / 4) + 1 = 1 + 2 * π by ring, sin_add_two_pi]
  rw [e] at this
  have h1 := sin_pos_of_pos_of_lt_pi one_pos (by linarith [pi_gt_three])
  have h2 : sin 1 < 1 := by
    have := sin_lt one_pos
    linarith
  have h3 : ((n + 1 : ℕ) : ℝ) * (sin 1 - sin 1 ^ 2) = 0 := by linarith
  have := (mul_eq_zero.1 h3).resolve_left hn.ne'
  nlinarith

theorem C89_perm_false (hD : 1 ≤ D) : ∃ x : Sol D, (∀ i, -(D : ℝ) ≤ x i ∧ x i ≤ D) ∧ Code.perm D 0.5 (vec x) ≠ num (perm D (one x) 0.5) := by
  obtain ⟨n, rfl⟩ := Nat.exists_eq_add_of_le' hD
  refine ⟨fun i => if i = 0 then 0 else 1 / (i.1 + 1 : ℝ), fun i => ?_, fun h => ?_⟩
  · have hi := (Nat.cast_nonneg i.1 : (0 : ℝ) ≤ i.1)
    have hn := (Nat.cast_nonneg n : (0 : ℝ) ≤ n)
    push_cast
    split
    · exact ⟨by linarith, by linarith⟩
    · exact ⟨by linarith [(by positivity : 0 ≤ 1 / (i.1 + 1 : ℝ))], ((div_le_one (by positivity)).2 (by linarith)).trans (by linarith)⟩
  rw [Code.C88_perm] at h
  have := num_inj h
  unfold perm Bench.perm at this
  simp only [sum_one, one_succ] at this
  have e1 : ∑ c : Fin (n + 1), (∑ _r : Fin (n + 1), ((c.1 : ℝ) + 1 + 0.5) *
      ((if c = 0 then 0 else 1 / (c.1 + 1 : ℝ)) ^ (c.1 + 1) - (1 / (c.1 + 1 : ℝ)) ^ (c.1 + 1))) ^ 2 = (1.5 * (n + 1)) ^ 2 := by
    rw [sum_eq_single_of_mem 0 (mem_univ _) fun c _ hc => by simp [hc]]
    simp
    ring
  have e2 (i : ℕ) : ∑ j : Fin (n + 1), (((j.1 + 1 : ℕ) : ℝ) - 0.5) *
      ((if j = 0 then 0 else 1 / (j.1 + 1 : ℝ)) ^ (i + 1) - 1 / ((j.1 + 1 : ℕ) : ℝ) ^ (i + 1)) = -0.5 := by
    rw [sum_eq_single_of_mem 0 (mem_univ _) fun c _ hc => by simp [hc]]
    norm_num
  rw [e1] at this
  simp only [e2, sum_const, card_univ, Fintype.card_fin, nsmul_eq_mul] at this
  have hn := (Nat.cast_nonneg n : (0 : ℝ) ≤ n)
  push_cast at this
  nlinarith

theorem C89_schwefel_false (hD : 1 ≤ D) : ∃ x : Sol D, (∀ i, -500 ≤ x i ∧ x i ≤ 500) ∧ Code.schwefel D (vec x) ≠ num (schwefel D (one x)) := by
  refine ⟨fun _ => 0, fun i => by norm_num, fun h => ?_⟩
  rw [Code.C88_schwefel] at h
  have := num_inj h
  unfold schwefel Bench.schwefel at this
  simp only [sum_one, one_succ, Bench.wave] at this
  have hD' : (0 : ℝ) < D := by exact_mod_cast hD
  norm_num at this
  omega

theorem C89_modifiedSchwefel_false (n : ℕ) : ∃ x : Sol (n + 1), (∀ i, -100 ≤ x i ∧ x i ≤ 100) ∧
    Code.modifiedSchwefel (n + 1) (vec x) ≠ num (modifiedSchwefel (n + 1) (one x)) := by
  refine ⟨fun _ => 100, fun i => by norm_num, fun h => ?_⟩
  rw [Code.C88_modifiedSchwefel] at h
  have := num_inj h
  unfold modifiedSchwefel Bench.modifiedSchwefel at this
  simp only [sum_one, one_succ, sum_const, card_univ, Fintype.card_fin, nsmul_eq_mul] at this
  rw [if_neg (by norm_num), if_neg (by norm_num), if_neg (by rw [abs_of_pos] <;> norm_num), if_pos (by norm_num)] at this
  have hn : (1 : ℝ) ≤ ((n + 1 : ℕ) : ℝ) := by push_cast; linarith [(Nat.cast_nonneg n : (0 : ℝ) ≤ n)]
  have hz : ⌊((100 : ℝ) + 420.9687462275036) / 500⌋ = 1 := by rw [Int.floor_eq_iff]; norm_num
  rw [hz] at this
  have e := mul_left_cancel₀ (by linarith : ((n + 1 : ℕ) : ℝ) ≠ 0) (sub_right_inj.1 this)
  have p1 := pi_gt_d2; have p2 := pi_lt_d2
  -- the program: negative
  have c1 : Bench.wave (100 + 420.9687462275036) ≤ -2 := by
    unfold Bench.wave
    have l : (22.8 : ℝ) < √|100 + 420.9687462275036| := by
      apply lt_sqrt_of_sq_lt
      rw [abs_of_pos] <;> norm_num
    have u : √|(100 + 420.9687462275036 : ℝ)| < 22.9 := by
      rw [sqrt_lt' (by norm_num), abs_of_pos] <;> norm_num
    generalize √|(100 + 420.9687462275036 : ℝ)| = t at l u ⊢
    have e : sin t = -sin (t - 7 * π) := by
      rw [show t = (t - 7 * π) + π + ((3 : ℤ) : ℝ) * (2 * π) by push_cast; ring, sin_add_int_mul_two_pi, sin_add_pi]
      congr 2; ring
    have hs := mul_le_sin (x := t - 7 * π) (by linarith) (by linarith)
    have h5 : 0.4 ≤ 2 / π * (t - 7 * π) := by
      rw [div_mul_eq_mul_div, le_div_iff₀ (by linarith)]
      linarith
    rw [e]
    nlinarith
  -- the formula
  have c2 : (0 : ℝ) ≤ (500 - (100 + 420.9687462275036 - 500 * ((1 : ℤ) : ℝ))) * sin (√|500 - (100 + 420.9687462275036 - 500 * ((1 : ℤ) : ℝ))|) := by
    have l : (21.8 : ℝ) < √|500 - (100 + 420.9687462275036 - 500 * ((1 : ℤ) : ℝ))| := by
      apply lt_sqrt_of_sq_lt
      rw [abs_of_pos] <;> norm_num
    have u : √|500 - (100 + 420.9687462275036 - 500 * ((1 : ℤ) : ℝ))| < 21.9 := by
      rw [sqrt_lt' (by norm_num), abs_of_pos] <;> norm_num
    refine mul_nonneg (by norm_num) ?_
    rw [← sin_sub_int_mul_two_pi _ 3]
    push_cast
    exact sin_nonneg_of_nonneg_of_le_pi (by linarith) (by linarith)
  have c3 : (100 + 420.9687462275036 - 500 : ℝ) ^ 2 / (10000 * ((n + 1 : ℕ) : ℝ)) ≤ 1 := by
    rw [div_le_one (by linarith)]
    nlinarith
  linarith

theorem C89_stepint_false : Code.stepint (vec (0 : Sol D)) ≠ num (stepint D (one (0 : Sol D))) := by
  intro h
  rw [Code.C88_stepint] at h
  have := num_inj h
  unfold stepint Bench.stepint at this
  simp only [sum_one, one_succ] at this
  norm_num at this

theorem C89_expandedSchaffer_false (n : ℕ) : Code.expandedSchaffer (vec (0 : Sol (n + 1))) ≠ num (expandedSchaffer (n + 1) (one (0 : Sol (n + 1)))) := by
  intro h
  rw [Code.C88_expandedSchaffer] at h
  have := num_inj h
  unfold expandedSchaffer Bench.expandedSchaffer at this
  simp only [sum_two, one_one, one_two, one_last, show ∀ i, i + 2 - 1 = i + 1 from fun _ => rfl] at this
  simp only [one_castSucc] at this
  norm_num at this
  linarith [this, (Nat.cast_nonneg n : (0 : ℝ) ≤ n)]

end NiaPy.Bench.Latex
