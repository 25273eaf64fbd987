import Verif.Problems.Trig
import Verif.Problems.Schwefel

/-!
# The boxes of the benchmarks (`niapy/problems`): C110

A benchmark that is constructed without bounds searches its default box. Here the default boxes are tabulated and the documented
minimisers are shown to lie in them, so that the documented minimum is the minimum of the task that a user gets from
`Task(problem=Ackley(dimension=10))`. Modelled over the real numbers (as in `Squares` and `Trig`).
-/

namespace NiaPy.Bench
open Finset Real

variable {D n : ℕ}

/-- The benchmarks of C110. -/
inductive Name
  | ackley | alpine1 | bentCigar | chungReynolds | csendes | elliptic | griewank | hgbat | pinter | powell | quintic |
    rastrigin | ridge | rosenbrock | salomon | schafferN2 | expandedSchaffer | schumerSteiglitz | schwefel221 |
    schwefel222 | sphere | sphere2 | sphere3 | step | step2 | step3 | sumSquares | weierstrass | whitley | zakharov |
    dixonPrice | qing | modifiedSchwefel | stepint | styblinskiTang | schwefel | cosineMixture | perm | trid

/-- The lower bound of every component if the user gives none (the line of the constructor is at every entry). -/
noncomputable def lower : Name → ℕ → ℝ
  | .ackley, _ => -32.768  -- ackley.py:52
  | .alpine1, _ => -10  -- alpine.py:48
  | .bentCigar, _ => -100  -- bent_cigar.py:47
  | .chungReynolds, _ => -100  -- chung_reynolds.py:48
  | .csendes, _ => -1  -- csendes.py:49
  | .elliptic, _ => -100  -- elliptic.py:47
  | .griewank, _ => -100  -- griewank.py:50
  | .hgbat, _ => -100  -- hgbat.py:46
  | .pinter, _ => -10  -- pinter.py:59
  | .powell, _ => -4  -- powell.py:47
  | .quintic, _ => -10  -- quintic.py:52
  | .rastrigin, _ => -5.12  -- rastrigin.py:47
  | .ridge, _ => -64  -- ridge.py:46
  | .rosenbrock, _ => -30  -- rosenbrock.py:50
  | .salomon, _ => -100  -- salomon.py:52
  | .schafferN2, _ => -100  -- schaffer.py:45
  | .expandedSchaffer, _ => -100  -- schaffer.py:174
  | .schumerSteiglitz, _ => -100  -- schumer_steiglitz.py:48
  | .schwefel221, _ => -100  -- schwefel.py:111
  | .schwefel222, _ => -100  -- schwefel.py:176
  | .sphere, _ => -5.12  -- sphere.py:48
  | .sphere2, _ => -1  -- sphere.py:110
  | .sphere3, _ => -65.536  -- sphere.py:173
  | .step, _ => -100  -- step.py:51
  | .step2, _ => -100  -- step.py:117
  | .step3, _ => -100  -- step.py:183
  | .sumSquares, _ => -10  -- sum_squares.py:47
  | .weierstrass, _ => -100  -- weierstrass.py:46
  | .whitley, _ => -10.24  -- whitley.py:55
  | .zakharov, _ => -5  -- zakharov.py:46
  | .dixonPrice, _ => -10  -- dixon_price.py:47
  | .qing, _ => -500  -- qing.py:50
  | .modifiedSchwefel, _ => -100  -- schwefel.py:239
  | .stepint, _ => -5.12  -- stepint.py:48
  | .styblinskiTang, _ => -5  -- styblinski_tang.py:51
  | .schwefel, _ => -500  -- schwefel.py:46
  | .cosineMixture, _ => -1  -- cosine_mixture.py:47
  | .perm, D => -D  -- perm.py:59
  | .trid, D => -(D : ℝ) ^ 2  -- trid.py:59

/-- The upper bound of every component if the user gives none. -/
noncomputable def upper : Name → ℕ → ℝ
  | .ackley, _ => 32.768  -- ackley.py:52
  | .alpine1, _ => 10  -- alpine.py:48
  | .bentCigar, _ => 100  -- bent_cigar.py:47
  | .chungReynolds, _ => 100  -- chung_reynolds.py:48
  | .csendes, _ => 1  -- csendes.py:49
  | .elliptic, _ => 100  -- elliptic.py:47
  | .griewank, _ => 100  -- griewank.py:50
  | .hgbat, _ => 100  -- hgbat.py:46
  | .pinter, _ => 10  -- pinter.py:59
  | .powell, _ => 5  -- powell.py:47
  | .quintic, _ => 10  -- quintic.py:52
  | .rastrigin, _ => 5.12  -- rastrigin.py:47
  | .ridge, _ => 64  -- ridge.py:46
  | .rosenbrock, _ => 30  -- rosenbrock.py:50
  | .salomon, _ => 100  -- salomon.py:52
  | .schafferN2, _ => 100  -- schaffer.py:45
  | .expandedSchaffer, _ => 100  -- schaffer.py:174
  | .schumerSteiglitz, _ => 100  -- schumer_steiglitz.py:48
  | .schwefel221, _ => 100  -- schwefel.py:111
  | .schwefel222, _ => 100  -- schwefel.py:176
  | .sphere, _ => 5.12  -- sphere.py:48
  | .sphere2, _ => 1  -- sphere.py:110
  | .sphere3, _ => 65.536  -- sphere.py:173
  | .step, _ => 100  -- step.py:51
  | .step2, _ => 100  -- step.py:117
  | .step3, _ => 100  -- step.py:183
  | .sumSquares, _ => 10  -- sum_squares.py:47
  | .weierstrass, _ => 100  -- weierstrass.py:46
  | .whitley, _ => 10.24  -- whitley.py:55
  | .zakharov, _ => 10  -- zakharov.py:46
  | .dixonPrice, _ => 10  -- dixon_price.py:47
  | .qing, _ => 500  -- qing.py:50
  | .modifiedSchwefel, _ => 100  -- schwefel.py:239
  | .stepint, _ => 5.12  -- stepint.py:48
  | .styblinskiTang, _ => 5  -- styblinski_tang.py:51
  | .schwefel, _ => 500  -- schwefel.py:46
  | .cosineMixture, _ => 1  -- cosine_mixture.py:47
  | .perm, D => D  -- perm.py:59
  | .trid, D => (D : ℝ) ^ 2  -- trid.py:59

/-- The box that a task for the benchmark searches by default: `Problem.__init__` (problem.py:26-37) repeats the scalar bounds
for every component. -/
def InBox (b : Name) (x : Sol D) : Prop := ∀ i, lower b D ≤ x i ∧ x i ≤ upper b D

/-- The point `p` is one that the task may return, it has the value `m` and no point of the box has a smaller one. -/
def MinInBox (b : Name) (f : Sol D → ℝ) (p : Sol D) (m : ℝ) : Prop :=
  InBox b p ∧ f p = m ∧ ∀ x, InBox b x → m ≤ f x

theorem HasMin.inBox {b : Name} {f : Sol D → ℝ} {p : Sol D} {m : ℝ} (h : HasMin f p m) (hp : InBox b p) : MinInBox b f p m :=
  ⟨hp, h.1, fun x _ => h.2 x⟩

theorem C110_ackley : MinInBox .ackley (ackley (D := n + 1) 20 0.2 (2 * π)) (0) 0 :=
  (C42_ackley _ _ _ (by norm_num) (by norm_num)).inBox fun i => by norm_num [lower, upper]

theorem C110_alpine1 : MinInBox .alpine1 (alpine1 (D := D)) (0) 0 :=
  (C42_alpine1).inBox fun i => by norm_num [lower, upper]

theorem C110_bentCigar : MinInBox .bentCigar (bentCigar (n := n)) (0) 0 :=
  (C41_bentCigar).inBox fun i => by norm_num [lower, upper]

theorem C110_chungReynolds : MinInBox .chungReynolds (chungReynolds (D := D)) (0) 0 :=
  (C41_chungReynolds).inBox fun i => by norm_num [lower, upper]

theorem C110_csendes : MinInBox .csendes (csendes (D := D)) (0) 0 :=
  (C42_csendes).inBox fun i => by norm_num [lower, upper]

theorem C110_elliptic : MinInBox .elliptic (elliptic (n := n)) (0) 0 :=
  (C41_elliptic).inBox fun i => by norm_num [lower, upper]

theorem C110_griewank : MinInBox .griewank (griewank (D := D)) (0) 0 :=
  (C42_griewank).inBox fun i => by norm_num [lower, upper]

theorem C110_hgbat : MinInBox .hgbat (hgbat (D := n + 1)) (fun _ => -1) 0 :=
  (C41_hgbat).inBox fun i => by norm_num [lower, upper]

theorem C110_pinter : MinInBox .pinter (pinter (n := n)) (0) 0 :=
  (C42_pinter).inBox fun i => by norm_num [lower, upper]

theorem C110_powell : MinInBox .powell (powell (n := n)) (0) 0 :=
  (C41_powell).inBox fun i => by norm_num [lower, upper]

theorem C110_quintic : MinInBox .quintic (quintic (D := D)) (fun _ => -1) 0 :=
  (C41_quintic).inBox fun i => by norm_num [lower, upper]

theorem C110_rastrigin : MinInBox .rastrigin (rastrigin (D := D)) (0) 0 :=
  (C42_rastrigin).inBox fun i => by norm_num [lower, upper]

theorem C110_ridge : MinInBox .ridge (ridge (D := D)) (0) 0 :=
  (C41_ridge).inBox fun i => by norm_num [lower, upper]

theorem C110_rosenbrock : MinInBox .rosenbrock (rosenbrock (n := n)) (1) 0 :=
  (C41_rosenbrock).inBox fun i => by norm_num [lower, upper]

theorem C110_salomon : MinInBox .salomon (salomon (D := D)) (0) 0 :=
  (C42_salomon).inBox fun i => by norm_num [lower, upper]

theorem C110_schafferN2 : MinInBox .schafferN2 (schafferN2) (0) 0 :=
  (C42_schafferN2).inBox fun i => by norm_num [lower, upper]

theorem C110_expandedSchaffer : MinInBox .expandedSchaffer (expandedSchaffer (n := n)) (0) 0 :=
  (C42_expandedSchaffer).inBox fun i => by norm_num [lower, upper]

theorem C110_schumerSteiglitz : MinInBox .schumerSteiglitz (schumerSteiglitz (D := D)) (0) 0 :=
  (C41_schumerSteiglitz).inBox fun i => by norm_num [lower, upper]

theorem C110_schwefel221 : MinInBox .schwefel221 (schwefel221 (n := n)) (0) 0 :=
  (C41_schwefel221).inBox fun i => by norm_num [lower, upper]

theorem C110_schwefel222 : MinInBox .schwefel222 (schwefel222 (D := D + 1)) (0) 0 :=
  (C41_schwefel222).inBox fun i => by norm_num [lower, upper]

theorem C110_sphere : MinInBox .sphere (sphere (D := D)) (0) 0 :=
  (C41_sphere).inBox fun i => by norm_num [lower, upper]

theorem C110_sphere2 : MinInBox .sphere2 (sphere2 (D := D)) (0) 0 :=
  (C41_sphere2).inBox fun i => by norm_num [lower, upper]

theorem C110_sphere3 : MinInBox .sphere3 (sphere3 (D := D)) (0) 0 :=
  (C41_sphere3).inBox fun i => by norm_num [lower, upper]

theorem C110_step : MinInBox .step (step (D := D)) (0) 0 :=
  (C41_step).inBox fun i => by norm_num [lower, upper]

theorem C110_step2 : MinInBox .step2 (step2 (D := D)) (fun _ => -0.5) 0 :=
  (C41_step2).inBox fun i => by norm_num [lower, upper]

theorem C110_step3 : MinInBox .step3 (step3 (D := D)) (0) 0 :=
  (C41_step3).inBox fun i => by norm_num [lower, upper]

theorem C110_sumSquares : MinInBox .sumSquares (sumSquares (D := D)) (0) 0 :=
  (C41_sumSquares).inBox fun i => by norm_num [lower, upper]

theorem C110_weierstrass : MinInBox .weierstrass (weierstrass (D := D) 0.5 3 20) (0) 0 :=
  (C42_weierstrass _ (by norm_num) _ _ (by decide)).inBox fun i => by norm_num [lower, upper]

theorem C110_whitley : MinInBox .whitley (whitley (D := D)) (1) 0 :=
  (C42_whitley).inBox fun i => by norm_num [lower, upper]

theorem C110_zakharov : MinInBox .zakharov (zakharov (D := D)) (0) 0 :=
  (C41_zakharov).inBox fun i => by norm_num [lower, upper]

/-- The documented point of `DixonPrice` has components between 0 and 1. -/
theorem C110_dixonPrice : MinInBox .dixonPrice (dixonPrice (n := n)) (dixonPoint (n + 2)) 0 := by
  refine C44_dixonPrice_point.inBox fun i => ?_
  have h0 : 0 ≤ dixonPoint (n + 2) i := by unfold dixonPoint; positivity
  have h1 : dixonPoint (n + 2) i ≤ 1 := by
    unfold dixonPoint
    refine rpow_le_one_of_one_le_of_nonpos (by norm_num) (div_nonpos_of_nonpos_of_nonneg ?_ (by positivity))
    have : (1 : ℝ) ≤ 2 ^ i.1 := one_le_pow₀ (by norm_num)
    rw [pow_succ]
    linarith
  simp only [lower, upper]
  constructor <;> linarith

/-- `Perm`: the default box depends on the dimension. -/
theorem C110_perm (beta : ℝ) : MinInBox .perm (perm (D := D) beta) (fun i => 1 / (i.1 + 1 : ℝ)) 0 := by
  refine (C41_perm beta).inBox fun i => ?_
  have hD : (1 : ℝ) ≤ D := by exact_mod_cast (Nat.zero_lt_of_lt i.2)
  have h0 : (0 : ℝ) ≤ 1 / (i.1 + 1) := by positivity
  have h1 : (1 : ℝ) / (i.1 + 1) ≤ 1 := by
    rw [div_le_one (by positivity)]
    linarith [Nat.cast_nonneg (α := ℝ) i.1]
  simp only [lower, upper]
  constructor <;> linarith

/-- `Trid`: the default box grows with the square of the dimension, as the minimiser does. -/
theorem C110_trid : MinInBox .trid (trid (n := n)) (fun i => (i.1 + 1 : ℝ) * ((n + 1 : ℝ) + 1 - (i.1 + 1)))
    (-((n + 1 : ℝ) * ((n + 1) + 4) * ((n + 1) - 1)) / 6) := by
  refine C43_trid.inBox fun i => ?_
  have h0 : (0 : ℝ) ≤ i.1 := Nat.cast_nonneg _
  have h1 : (i.1 : ℝ) ≤ n := by exact_mod_cast Nat.lt_succ_iff.1 i.2
  simp only [lower, upper]
  push_cast
  constructor <;> nlinarith

/-- `Qing` up to dimension 250000: all documented minimisers are in the box. -/
theorem C110_qing_partial (hD : D ≤ 250000) (p : Sol D) (hp : ∀ i, p i ^ 2 = (i.1 + 1 : ℝ)) :
    MinInBox .qing (qing (D := D)) p 0 := by
  refine (C41_qing p hp).inBox fun i => ?_
  have h1 : (i.1 + 1 : ℝ) ≤ 250000 := by exact_mod_cast (Nat.succ_le_of_lt i.2).trans hD
  have h2 : p i ^ 2 ≤ 500 ^ 2 := by rw [hp]; norm_num; exact h1
  simpa only [lower, upper] using abs_le.1 (abs_le_of_sq_le_sq h2 (by norm_num))

/-- `Qing` beyond dimension 250000: no point of the default box has the documented minimum, all values are at least 1. -/
theorem C110_qing_false (hD : 250000 < D) (x : Sol D) (hx : InBox .qing x) : 1 ≤ qing x := by
  have h1 : x ⟨250000, hD⟩ ^ 2 ≤ 500 ^ 2 := sq_le_sq' (hx ⟨250000, hD⟩).1 (hx ⟨250000, hD⟩).2
  have h2 : (1 : ℝ) ≤ (x ⟨250000, hD⟩ ^ 2 - (((⟨250000, hD⟩ : Fin D).1 : ℝ) + 1)) ^ 2 := by
    push_cast
    nlinarith
  exact h2.trans (single_le_sum (f := fun i : Fin D => (x i ^ 2 - (i.1 + 1 : ℝ)) ^ 2) (fun i _ => sq_nonneg _) (mem_univ _))

/-- `ModifiedSchwefel`: the documented minimiser is outside of the default box, in every dimension. -/
theorem C110_modifiedSchwefel_false : ¬ InBox .modifiedSchwefel (fun _ : Fin (n + 1) => (420.968746 : ℝ)) := fun h => by
  have := (h 0).2
  norm_num [upper] at this

/-- `Stepint`: the documented minimiser is a corner of the default box and a minimiser in it, though with another value than
documented (`C43_stepint_false`). Outside of the box there are smaller values. -/
theorem C110_stepint_partial : MinInBox .stepint (stepint (D := D)) (fun _ => -5.12) (25 - 6 * D) :=
  ⟨fun i => by norm_num [lower, upper], C43_stepint_partial.1, fun x hx => C43_stepint_partial.2 x fun i => (hx i).1⟩

/-- `StyblinskiTang`: up to the digits of the documentation. -/
theorem C110_styblinskiTang_partial : InBox .styblinskiTang (fun _ : Fin D => (-2.903534018 : ℝ)) ∧
    ∀ x : Sol D, styblinskiTang (fun _ : Fin D => -2.903534018) ≤ styblinskiTang x + 0.000001 * D :=
  ⟨fun i => by norm_num [lower, upper], fun x => by
    have h1 := C43_styblinskiTang.1 x
    have h2 := C43_styblinskiTang (D := D).2
    linarith⟩

/-- `Schwefel`: up to the digits of the documentation. Here the box matters: outside of it there are smaller values. -/
theorem C110_schwefel_partial : InBox .schwefel (fun _ : Fin D => (420.9687 : ℝ)) ∧
    ∀ x : Sol D, InBox .schwefel x → schwefel (D := D) (fun _ => 420.9687) ≤ schwefel x + 0.004 * D :=
  ⟨fun i => by norm_num [lower, upper], fun x hx => by
    have h1 := C82_schwefel x hx
    have h2 := C82_schwefel_attained (D := D)
    linarith⟩

/-- The default boxes are not empty and not degenerate: the lower bounds are below the upper ones. -/
theorem C110_nonempty (b : Name) : lower b (D + 1) < upper b (D + 1) := by
  have hD : (0 : ℝ) ≤ D := Nat.cast_nonneg _
  cases b <;> simp only [lower, upper] <;> first | norm_num; done | (push_cast; nlinarith)

/-- `Qing` in 300000 dimensions: its hypotheses can be met. -/
example : ∃ x : Sol 300000, InBox .qing x := ⟨0, fun i => by norm_num [lower, upper]⟩

example : ∃ p : Sol 4, ∀ i, p i ^ 2 = (i.1 + 1 : ℝ) := ⟨fun i => √(i.1 + 1), fun i => Real.sq_sqrt (by positivity)⟩

end NiaPy.Bench
