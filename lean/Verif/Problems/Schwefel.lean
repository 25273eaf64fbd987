import Verif.Problems.Trig
import Mathlib.Analysis.Real.Pi.Bounds

/-!
# The Schwefel functions (`niapy/problems/schwefel.py`): C82

`Schwefel` and `ModifiedSchwefel` are the two benchmarks whose documented optimum 0 is only approximate, because the constants in the code are
decimal approximations.  Over the real numbers the optimum is located to within 0.002 per component.
-/

namespace NiaPy.Bench
open Finset Real

variable {D : ℕ}

/-- One term of the sum, `x * np.sin(np.sqrt(np.abs(x)))` (schwefel.py:69, 269). -/
noncomputable def wave (z : ℝ) : ℝ := z * sin (√|z|)
/-- `Schwefel._evaluate` (schwefel.py:68-69) -/
noncomputable def schwefel (x : Sol D) : ℝ := 418.982887272433799807913601398 * D - ∑ i, wave (x i)
/-- `np.fmod(x, y)`: the remainder of the division rounded towards zero. -/
noncomputable def fmod (x y : ℝ) : ℝ := x - y * (if 0 ≤ x / y then (⌊x / y⌋ : ℝ) else ⌈x / y⌉)
/-- `ModifiedSchwefel._evaluate` (schwefel.py:263-271): the conditions test the argument and not the shifted argument. -/
noncomputable def modifiedSchwefel (x : Sol D) : ℝ := 418.9829 * D - ∑ i,
  let xx := x i + 420.9687462275036
  let m := fmod xx 500
  if x i > 500 then wave (500 - m) - (xx - 500) ^ 2 / (10000 * D)
  else if x i < -500 then wave (m - 500) + (xx - 500) ^ 2 / (10000 * D)
  else wave xx

/-- The sine near its seventh positive hill. -/
theorem sin_hill (u : ℝ) : sin (u + 6.5 * π) = cos u := by
  have h : u + 6.5 * π = (u + π / 2) + (3 : ℕ) * (2 * π) := by push_cast; ring
  rw [h, sin_add_nat_mul_two_pi, sin_add_pi_div_two]

theorem hill_poly (u : ℝ) (h0 : 0 ≤ u) (h1 : u ≤ 1) :
    (20.420353 + u) ^ 2 * (1 - u ^ 2 / 2 + u ^ 4 * (5 / 96)) ≤ 418.984 := by
  have hq : (180 : ℝ) ≤ 210.85 + 16.23 * u - 21.634 * u ^ 2 - 2.138 * u ^ 3 - 0.0521 * u ^ 4 := by
    have h2 : u ^ 2 ≤ 1 := by nlinarith
    have h3 : u ^ 3 ≤ 1 := by nlinarith
    have h4 : u ^ 4 ≤ 1 := by nlinarith [sq_nonneg (u ^ 2)]
    linarith
  have hy : 0 ≤ (u - 0.0972) ^ 2 * (210.85 + 16.23 * u - 21.634 * u ^ 2 - 2.138 * u ^ 3 - 0.0521 * u ^ 4 - 180) :=
    mul_nonneg (sq_nonneg _) (by linarith)
  have h2 : 0 ≤ u ^ 2 := by positivity
  have h3 : 0 ≤ u ^ 3 := by positivity
  have h4 : 0 ≤ u ^ 4 := by positivity
  have h5 : 0 ≤ u ^ 5 := by positivity
  have h6 : 0 ≤ u ^ 6 := by positivity
  nlinarith [sq_nonneg (u - 0.0972), sq_nonneg (u - 0.09721)]

/-- No term of the sum exceeds the constant by more than 0.002, for arguments slightly beyond the box. -/
theorem wave_le (z : ℝ) (hl : -500 ≤ z) (hu : z ≤ 521) : wave z ≤ 418.984 := by
  have hp := pi_gt_d6
  have hp' := pi_lt_d6
  set t := √|z| with ht
  have ht0 : 0 ≤ t := sqrt_nonneg _
  have htt : t * t = |z| := mul_self_sqrt (abs_nonneg _)
  have hz : |z| ≤ 521 := abs_le.2 ⟨by linarith, hu⟩
  have ht2 : t ≤ 22.83 := by nlinarith
  unfold wave
  rw [← ht]
  by_cases hs : t ≤ 20.469
  · have h1 : z * sin t ≤ |z| := by
      calc z * sin t ≤ |z * sin t| := le_abs_self _
        _ = |z| * |sin t| := abs_mul _ _
        _ ≤ |z| * 1 := mul_le_mul_of_nonneg_left (abs_sin_le_one _) (abs_nonneg _)
        _ = |z| := mul_one _
    have h2 : t * t ≤ 418.984 := by nlinarith
    linarith
  · push Not at hs
    obtain ⟨u, hu'⟩ : ∃ u, t = u + 6.5 * π := ⟨t - 6.5 * π, by ring⟩
    rw [hu', sin_hill]
    have hu0 : 0 ≤ u := by nlinarith
    have hu2 : u ≤ 2.42 := by nlinarith
    rcases le_or_gt 0 z with hz0 | hz0
    · rw [abs_of_nonneg hz0] at htt
      rw [← htt]
      by_cases h1 : u ≤ 1
      · have hc := abs_le.1 (cos_bound (abs_le.2 ⟨by linarith, h1⟩ : |u| ≤ 1))
        rw [abs_of_nonneg hu0] at hc
        have hP : 0 ≤ 1 - u ^ 2 / 2 + u ^ 4 * (5 / 96) := by nlinarith [sq_nonneg (u ^ 2)]
        calc t * t * cos u ≤ t * t * (1 - u ^ 2 / 2 + u ^ 4 * (5 / 96)) :=
              mul_le_mul_of_nonneg_left (by linarith [hc.2]) (by positivity)
          _ ≤ (20.420353 + u) ^ 2 * (1 - u ^ 2 / 2 + u ^ 4 * (5 / 96)) :=
              mul_le_mul_of_nonneg_right (by nlinarith [pi_lt_d20]) hP
          _ ≤ 418.984 := hill_poly u hu0 h1
      · have hc : cos u ≤ 5 / 9 := (cos_le_cos_of_nonneg_of_le_pi (by norm_num) (by linarith) (by linarith)).trans cos_one_le
        nlinarith
    · have hz' : |z| = -z := abs_of_neg hz0
      have ht3 : t ≤ 22.361 := by nlinarith
      have hc : -0.38 ≤ cos u := by
        rw [← sin_pi_div_two_sub]
        rcases le_or_gt (π / 2 - u) 0 with h | h
        · exact le_trans (by nlinarith) (le_sin h)
        · exact le_trans (by norm_num) (sin_nonneg_of_nonneg_of_le_pi h.le (by linarith))
      nlinarith

/-- At the documented point a term comes within 0.002 of the constant. -/
theorem le_wave (z : ℝ) (hl : 420.968 ≤ z) (hu : z ≤ 420.969) : 418.981 ≤ wave z := by
  have hz : |z| = z := abs_of_nonneg (by linarith)
  have htt : √|z| * √|z| = z := by rw [mul_self_sqrt (abs_nonneg _), hz]
  unfold wave
  set t := √|z|
  have ht0 : 0 ≤ t := sqrt_nonneg _
  have h1 : 20.5174 ≤ t := by nlinarith
  have h2 : t ≤ 20.5176 := by nlinarith
  obtain ⟨u, hu'⟩ : ∃ u, t = u + 6.5 * π := ⟨t - 6.5 * π, by ring⟩
  rw [hu', sin_hill]
  have hp := pi_gt_d20
  have hp' := pi_lt_d20
  have hu0 : 0 ≤ u := by linarith
  have hu1 : u ≤ 0.09725 := by linarith
  have hc := one_sub_sq_div_two_le_cos (x := u)
  nlinarith

/-- C82: on its box `Schwefel` is nowhere below its documented minimum 0 by more than 0.002 per component, and the documented minimiser
(420.9687, ..., 420.9687) comes as close to it from above. -/
theorem C82_schwefel (x : Sol D) (hx : ∀ i, -500 ≤ x i ∧ x i ≤ 500) : -0.002 * D ≤ schwefel x := by
  have h : ∑ i, wave (x i) ≤ ∑ _i : Fin D, (418.984 : ℝ) :=
    Finset.sum_le_sum fun i _ => wave_le _ (hx i).1 (by linarith [(hx i).2])
  rw [Finset.sum_const, Finset.card_univ, Fintype.card_fin, nsmul_eq_mul] at h
  have hD : (0 : ℝ) ≤ D := Nat.cast_nonneg _
  unfold schwefel
  nlinarith

example : ∀ i : Fin 4, -500 ≤ (fun _ => 420.9687 : Sol 4) i ∧ (fun _ => 420.9687 : Sol 4) i ≤ 500 := fun _ => by norm_num

theorem C82_schwefel_attained : schwefel (D := D) (fun _ => 420.9687) ≤ 0.002 * D := by
  have h := le_wave 420.9687 (by norm_num) (by norm_num)
  have hD : (0 : ℝ) ≤ D := Nat.cast_nonneg _
  unfold schwefel
  rw [Finset.sum_const, Finset.card_univ, Fintype.card_fin, nsmul_eq_mul]
  nlinarith

/-- What the code of `ModifiedSchwefel` has instead of the documented minimum: on the box `[-100, 100]` it stays above `-0.002` per component, and
comes within 0.002 per component of 0 at the origin. -/
theorem C82_modified_partial : (∀ x : Sol D, (∀ i, -100 ≤ x i ∧ x i ≤ 100) → -0.002 * D ≤ modifiedSchwefel x) ∧
    modifiedSchwefel (D := D) 0 ≤ 0.002 * D := by
  have hD : (0 : ℝ) ≤ D := Nat.cast_nonneg _
  constructor
  · intro x hx
    have h : ∀ i, (let xx := x i + 420.9687462275036
        let m := fmod xx 500
        if x i > 500 then wave (500 - m) - (xx - 500) ^ 2 / (10000 * D)
        else if x i < -500 then wave (m - 500) + (xx - 500) ^ 2 / (10000 * D)
        else wave xx) ≤ 418.984 := by
      intro i
      dsimp only
      rw [if_neg (by linarith [(hx i).2]), if_neg (by linarith [(hx i).1])]
      exact wave_le _ (by linarith [(hx i).1]) (by linarith [(hx i).2])
    have h := Finset.sum_le_sum fun i (_ : i ∈ Finset.univ) => h i
    rw [Finset.sum_const, Finset.card_univ, Fintype.card_fin, nsmul_eq_mul] at h
    unfold modifiedSchwefel
    linarith
  · unfold modifiedSchwefel
    simp only [Pi.zero_apply]
    rw [if_neg (by norm_num), if_neg (by norm_num), Finset.sum_const, Finset.card_univ, Fintype.card_fin, nsmul_eq_mul]
    have h := le_wave (0 + 420.9687462275036) (by norm_num) (by norm_num)
    nlinarith

/-- The documented minimiser of `ModifiedSchwefel`, (420.968746, ..., 420.968746) with the value 0, is not in the box and its value is above 418 per
component. -/
theorem C82_modified_false : ¬ (-100 ≤ (420.968746 : ℝ) ∧ (420.968746 : ℝ) ≤ 100) ∧
    418 * (D : ℝ) ≤ modifiedSchwefel (D := D) fun _ => 420.968746 := by
  refine ⟨by norm_num, ?_⟩
  have hD : (0 : ℝ) ≤ D := Nat.cast_nonneg _
  have hw : ∀ z : ℝ, z = 420.968746 + 420.9687462275036 → wave z ≤ 0 := by
    intro z hz
    have hzv : z = 841.9374922275036 := by rw [hz]; norm_num
    have h0 : |z| = z := abs_of_nonneg (by linarith)
    have htt : √|z| * √|z| = z := by rw [mul_self_sqrt (abs_nonneg _), h0]
    unfold wave
    set t := √|z|
    have ht0 : 0 ≤ t := sqrt_nonneg _
    have h1 : 29 ≤ t := by nlinarith
    have h2 : t ≤ 29.1 := by nlinarith
    have hs : sin t = -sin (t - 9 * π) := by
      have : t = (t - 9 * π + π) + (4 : ℕ) * (2 * π) := by push_cast; ring
      conv_lhs => rw [this, sin_add_nat_mul_two_pi, sin_add_pi]
    have hp := pi_gt_d6
    have hp' := pi_lt_d6
    have := sin_nonneg_of_nonneg_of_le_pi (x := t - 9 * π) (by linarith) (by linarith)
    rw [hs]
    nlinarith
  have hw := hw _ rfl
  unfold modifiedSchwefel
  have h1 : ¬ ((420.968746 : ℝ) > 500) := by norm_num
  have h2 : ¬ ((420.968746 : ℝ) < -500) := by norm_num
  simp only [h1, h2, if_false]
  rw [Finset.sum_const, Finset.card_univ, Fintype.card_fin, nsmul_eq_mul]
  nlinarith

end NiaPy.Bench
