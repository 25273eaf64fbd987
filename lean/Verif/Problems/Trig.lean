import Verif.Problems.Squares
import Mathlib.Analysis.SpecialFunctions.Trigonometric.Bounds
import Mathlib.Analysis.SpecialFunctions.Log.Base
import Mathlib.Analysis.Real.Pi.Bounds

/-!
# Benchmarks with trigonometric functions (`niapy/problems`): C42, C44
-/

namespace NiaPy.Bench
open Finset Real

variable {D n : ℕ}

/-- `Ackley._evaluate` (ackley.py:84-91) -/
noncomputable def ackley (a b c : ℝ) (x : Sol D) : ℝ :=
  -a * exp (-b * √((∑ i, x i ^ 2) / D)) - exp ((∑ i, cos (c * x i)) / D) + a + exp 1
/-- `Alpine1._evaluate` (alpine.py:72-73) -/
noncomputable def alpine1 (x : Sol D) : ℝ := ∑ i, |sin (x i) + 0.1 * x i|
/-- `Alpine2._evaluate` (alpine.py:138-139) -/
noncomputable def alpine2 (x : Sol D) : ℝ := ∏ i, √(x i) * sin (x i)
/-- `Csendes._evaluate` (csendes.py:73-75): only the components that are not 0 count. -/
noncomputable def csendes (x : Sol D) : ℝ := ∑ i, if x i ≠ 0 then x i ^ 6 * (2 + sin (1 / x i)) else 0
/-- `Griewank._evaluate` (griewank.py:74-78) -/
noncomputable def griewank (x : Sol D) : ℝ := (∑ i, x i * x i / 4000) - (∏ i : Fin D, cos (x i / √(i.1 + 1))) + 1
/-- `ExpandedGriewankPlusRosenbrock._evaluate` (griewank.py:140-143) -/
noncomputable def expandedGriewank (x : Sol (n + 1)) : ℝ := ∑ i : Fin n,
  let t := 100 * (x i.succ - x i.castSucc ^ 2) ^ 2 + (1 - x i.castSucc) ^ 2
  (t * t / 4000 - cos (t / √(i.1 + 1)))
/-- `Levy._evaluate` (levy.py:71-77): the sine in the middle terms is not squared. -/
noncomputable def levy (x : Sol (n + 1)) : ℝ :=
  let w (i : Fin (n + 1)) : ℝ := 1 + (x i - 1) / 4
  sin (π * w 0) ^ 2 + (∑ i : Fin n, (w i.castSucc - 1) ^ 2 * (1 + 10 * sin (π * w i.castSucc + 1))) +
    (w (Fin.last n) - 1) ^ 2 * (1 + sin (2 * π * w (Fin.last n)) ^ 2)
/-- `Michalewicz._evaluate` (michalewicz.py:75-76), for a natural number `m`. -/
noncomputable def michalewicz (m : ℕ) (x : Sol D) : ℝ := -∑ i : Fin D, sin (x i) * sin ((i.1 + 1 : ℝ) * x i ^ 2 / π) ^ (2 * m)
/-- `Pinter._evaluate` (pinter.py:87-99). `np.roll(x, 1)` shifts to the right, cyclically. -/
noncomputable def pinter (x : Sol (n + 1)) : ℝ :=
  let sub (i : Fin (n + 1)) : ℝ := x (i - 1)
  let add (i : Fin (n + 1)) : ℝ := x (i + 1)
  let a (i : Fin (n + 1)) : ℝ := sub i * sin (x i) + sin (add i)
  let b (i : Fin (n + 1)) : ℝ := sub i * sub i - 2 * x i + 3 * add i - cos (x i) + 1
  (∑ i, (i.1 + 1 : ℝ) * x i * x i) + (∑ i, 20 * (i.1 + 1 : ℝ) * sin (a i) ^ 2) +
    ∑ i, (i.1 + 1 : ℝ) * logb 10 (1 + (i.1 + 1 : ℝ) * b i ^ 2)
/-- `Rastrigin._evaluate` (rastrigin.py:71-72) -/
noncomputable def rastrigin (x : Sol D) : ℝ := 10 * D + ∑ i, (x i * x i - 10 * cos (2 * π * x i))
/-- `Salomon._evaluate` (salomon.py:77-79) -/
noncomputable def salomon (x : Sol D) : ℝ := 1 - cos (2 * π * √(∑ i, x i ^ 2)) + 0.1 * √(∑ i, x i ^ 2)
/-- `SchafferN2._evaluate` (schaffer.py:69-70) -/
noncomputable def schafferN2 (x : Sol 2) : ℝ := 0.5 + (sin (x 0 ^ 2 - x 1 ^ 2) ^ 2 - 0.5) / (1 + 0.001 * (x 0 ^ 2 + x 1 ^ 2)) ^ 2
/-- `SchafferN4._evaluate` (schaffer.py:131-132): the absolute value in the sine is missing. -/
noncomputable def schafferN4 (x : Sol 2) : ℝ := 0.5 + (cos (sin (x 0 ^ 2 - x 1 ^ 2)) ^ 2 - 0.5) / (1 + 0.001 * (x 0 ^ 2 + x 1 ^ 2)) ^ 2
/-- `ExpandedSchaffer._evaluate` (schaffer.py:198-202) -/
noncomputable def expandedSchaffer (x : Sol (n + 1)) : ℝ := ∑ i,
  let t := x i ^ 2 + x (i + 1) ^ 2
  (0.5 + (sin (√t) ^ 2 - 0.5) / (1 + 0.001 * t) ^ 2)
/-- `Weierstrass._evaluate` (weierstrass.py:76-81) -/
noncomputable def weierstrass (a : ℝ) (b kMax : ℕ) (x : Sol D) : ℝ :=
  (∑ i, ∑ k ∈ range (kMax + 1), a ^ k * cos (2 * π * (b : ℝ) ^ k * (x i + 0.5))) -
    D * ∑ k ∈ range (kMax + 1), a ^ k * cos (π * (b : ℝ) ^ k)
/-- `Whitley._evaluate` (whitley.py:81-85) -/
noncomputable def whitley (x : Sol D) : ℝ := ∑ i, ∑ j,
  let t := 100 * (x i ^ 2 - x j) ^ 2 + (1 - x j) ^ 2
  (t ^ 2 / 4000 - cos t + 1)
/-- `CosineMixture._evaluate` (cosine_mixture.py:71-72) -/
noncomputable def cosineMixture (x : Sol D) : ℝ := -0.1 * (∑ i, cos (5 * π * x i)) - ∑ i, x i ^ 2

/-! ## C42 -/

theorem C42_ackley (a b c : ℝ) (ha : 0 ≤ a) (hb : 0 ≤ b) : HasMin (ackley (D := n + 1) a b c) 0 0 := by
  have hn : (0 : ℝ) < ((n + 1 : ℕ) : ℝ) := by positivity
  refine ⟨?_, fun x => ?_⟩
  · have : (n : ℝ) + 1 ≠ 0 := by positivity
    simp [ackley, div_self this]
    ring
  · have h1 : exp (-b * √((∑ i, x i ^ 2) / ((n + 1 : ℕ) : ℝ))) ≤ 1 := by
      rw [exp_le_one_iff]
      have := mul_nonneg hb (sqrt_nonneg ((∑ i, x i ^ 2) / ((n + 1 : ℕ) : ℝ)))
      linarith
    have h2 : (∑ i, cos (c * x i)) / ((n + 1 : ℕ) : ℝ) ≤ 1 := by
      rw [div_le_one hn]
      calc ∑ i, cos (c * x i) ≤ ∑ _i : Fin (n + 1), (1 : ℝ) := sum_le_sum fun i _ => cos_le_one _
        _ = _ := by simp
    have h3 := exp_le_exp.2 h2
    have h4 := mul_le_mul_of_nonneg_left h1 ha
    simp only [ackley]
    linarith

example : HasMin (ackley (D := n + 1) 20 0.2 (2 * π)) 0 0 := C42_ackley 20 0.2 _ (by norm_num) (by norm_num)

theorem C42_alpine1 : HasMin (alpine1 (D := D)) 0 0 :=
  ⟨by simp [alpine1], fun x => sum_nonneg fun i _ => abs_nonneg _⟩

theorem C42_csendes : HasMin (csendes (D := D)) 0 0 :=
  ⟨by simp [csendes], fun x => sum_nonneg fun i _ => by
    split
    · have := neg_one_le_sin (1 / x i)
      exact mul_nonneg (by positivity) (by linarith)
    · exact le_refl _⟩

theorem prod_cos_le_one {ι : Type} (s : Finset ι) (f : ι → ℝ) : ∏ i ∈ s, cos (f i) ≤ 1 :=
  (le_abs_self _).trans (by rw [abs_prod]; exact prod_le_one (fun i _ => abs_nonneg _) fun i _ => abs_cos_le_one _)

theorem C42_griewank : HasMin (griewank (D := D)) 0 0 := by
  refine ⟨by simp [griewank], fun x => ?_⟩
  have h1 : 0 ≤ ∑ i, x i * x i / 4000 := sum_nonneg fun i _ => div_nonneg (mul_self_nonneg _) (by norm_num)
  have h2 := prod_cos_le_one univ fun i : Fin D => x i / √(i.1 + 1)
  simp only [griewank]
  linarith

theorem C42_pinter : HasMin (pinter (n := n)) 0 0 := by
  refine ⟨by simp [pinter], fun x => ?_⟩
  simp only [pinter]
  refine add_nonneg (add_nonneg ?_ ?_) ?_
  · exact sum_nonneg fun i _ => by rw [mul_assoc]; exact mul_nonneg (by positivity) (mul_self_nonneg _)
  · exact sum_nonneg fun i _ => by positivity
  · refine sum_nonneg fun i _ => mul_nonneg (by positivity) (logb_nonneg (by norm_num) ?_)
    have : (0 : ℝ) ≤ (i.1 + 1 : ℝ) * (x (i - 1) * x (i - 1) - 2 * x i + 3 * x (i + 1) - cos (x i) + 1) ^ 2 := by positivity
    linarith

theorem C42_rastrigin : HasMin (rastrigin (D := D)) 0 0 := by
  refine ⟨by simp [rastrigin]; ring, fun x => ?_⟩
  have : ∑ i : Fin D, (-10 : ℝ) ≤ ∑ i, (x i * x i - 10 * cos (2 * π * x i)) := sum_le_sum fun i _ => by
    have h1 := cos_le_one (2 * π * x i)
    have h2 := mul_self_nonneg (x i)
    linarith
  simp only [sum_const, card_univ, Fintype.card_fin, nsmul_eq_mul] at this
  simp only [rastrigin]
  linarith

theorem C42_salomon : HasMin (salomon (D := D)) 0 0 := by
  refine ⟨by simp [salomon], fun x => ?_⟩
  have h1 := cos_le_one (2 * π * √(∑ i, x i ^ 2))
  have h2 := sqrt_nonneg (∑ i, x i ^ 2)
  simp only [salomon]
  linarith

theorem half_bound {s t : ℝ} (ht : 0 ≤ t) : 0 ≤ 0.5 + (s ^ 2 - 0.5) / (1 + 0.001 * t) ^ 2 := by
  have h1 : (1 : ℝ) ≤ (1 + 0.001 * t) ^ 2 := by nlinarith
  have h2 : -0.5 ≤ (s ^ 2 - 0.5) / (1 + 0.001 * t) ^ 2 := by
    rw [le_div_iff₀ (by linarith)]
    nlinarith [sq_nonneg s]
  linarith

theorem C42_schafferN2 : HasMin schafferN2 0 0 :=
  ⟨by simp [schafferN2], fun x => half_bound (by positivity)⟩

theorem C42_expandedSchaffer : HasMin (expandedSchaffer (n := n)) 0 0 :=
  ⟨by simp [expandedSchaffer], fun x => sum_nonneg fun i _ => half_bound (by positivity)⟩

theorem cos_odd_mul_pi {m : ℕ} (h : Odd m) : cos (π * (m : ℝ)) = -1 := by
  obtain ⟨k, rfl⟩ := h
  have : π * ((2 * k + 1 : ℕ) : ℝ) = π + (k : ℝ) * (2 * π) := by push_cast; ring
  rw [this, cos_add_nat_mul_two_pi, cos_pi]

/-- `Weierstrass` for an odd `b` and `a >= 0` (the defaults are `b = 3`, `a = 0.5`). -/
theorem C42_weierstrass (a : ℝ) (ha : 0 ≤ a) (b kMax : ℕ) (hb : Odd b) : HasMin (weierstrass (D := D) a b kMax) 0 0 := by
  have hc : ∀ k : ℕ, cos (π * (b : ℝ) ^ k) = -1 := fun k => by
    have := cos_odd_mul_pi (hb.pow (n := k))
    push_cast at this
    exact this
  refine ⟨?_, fun x => ?_⟩
  · have h3 : ∀ k : ℕ, cos (2 * π * (b : ℝ) ^ k * 0.5) = -1 := fun k => by
      rw [← hc k]; congr 1; ring
    simp only [weierstrass, Pi.zero_apply, zero_add, h3, hc]
    simp
  · simp only [weierstrass, hc]
    have : ∑ i : Fin D, ∑ k ∈ range (kMax + 1), a ^ k * (-1) ≤
        ∑ i, ∑ k ∈ range (kMax + 1), a ^ k * cos (2 * π * (b : ℝ) ^ k * (x i + 0.5)) :=
      sum_le_sum fun i _ => sum_le_sum fun k _ => mul_le_mul_of_nonneg_left (neg_one_le_cos _) (pow_nonneg ha k)
    simp only [sum_const, card_univ, Fintype.card_fin, nsmul_eq_mul] at this
    linarith

example : HasMin (weierstrass (D := D) 0.5 3 20) 0 0 := C42_weierstrass _ (by norm_num) _ _ (by decide)

theorem C42_whitley : HasMin (whitley (D := D)) 1 0 := by
  refine ⟨by simp [whitley], fun x => sum_nonneg fun i _ => sum_nonneg fun j _ => ?_⟩
  have := cos_le_one (100 * (x i ^ 2 - x j) ^ 2 + (1 - x j) ^ 2)
  have h2 : (0 : ℝ) ≤ (100 * (x i ^ 2 - x j) ^ 2 + (1 - x j) ^ 2) ^ 2 / 4000 := by positivity
  simp only
  linarith

/-- `Michalewicz` is bounded below by `-D` (the documentation gives numerical optima for three dimensions only). -/
theorem C42_michalewicz_bound (m : ℕ) (x : Sol D) : -(D : ℝ) ≤ michalewicz m x := by
  simp only [michalewicz]
  have : ∑ i : Fin D, sin (x i) * sin ((i.1 + 1 : ℝ) * x i ^ 2 / π) ^ (2 * m) ≤ ∑ i : Fin D, (1 : ℝ) := sum_le_sum fun i _ => by
    have h1 : sin ((i.1 + 1 : ℝ) * x i ^ 2 / π) ^ (2 * m) ≤ 1 := by
      rw [pow_mul]
      exact pow_le_one₀ (sq_nonneg _) (sin_sq_le_one _)
    have h0 : 0 ≤ sin ((i.1 + 1 : ℝ) * x i ^ 2 / π) ^ (2 * m) := by rw [pow_mul]; positivity
    nlinarith [sin_le_one (x i)]
  simp at this
  linarith

/-! ## C44 -/

/-- `Alpine2` is smaller at the origin than the documented minimum `2.808 ^ D`: the documented point is a maximum. -/
theorem C44_alpine2_false : ∃ x : Sol (n + 1), (∀ i, 0 ≤ x i ∧ x i ≤ 10) ∧ alpine2 x < 2.808 ^ (n + 1) :=
  ⟨0, fun _ => by simp, by simp [alpine2]; positivity⟩

/-- `ExpandedGriewankPlusRosenbrock` has the minimum `-(D - 1)` at `(1, …, 1)`, not 0 at the origin. -/
theorem C44_expandedGriewank_partial : HasMin (expandedGriewank (n := n)) 1 (-n) := by
  refine ⟨by simp [expandedGriewank], fun x => ?_⟩
  have : ∑ i : Fin n, (-1 : ℝ) ≤ expandedGriewank x := sum_le_sum fun i _ => by
    simp only
    have h1 := cos_le_one ((100 * (x i.succ - x i.castSucc ^ 2) ^ 2 + (1 - x i.castSucc) ^ 2) / √((i.1 : ℝ) + 1))
    have h2 := mul_self_nonneg (100 * (x i.succ - x i.castSucc ^ 2) ^ 2 + (1 - x i.castSucc) ^ 2)
    have h3 : 0 ≤ (100 * (x i.succ - x i.castSucc ^ 2) ^ 2 + (1 - x i.castSucc) ^ 2) * (100 * (x i.succ - x i.castSucc ^ 2) ^ 2 + (1 - x i.castSucc) ^ 2) / 4000 := by positivity
    linarith
  simpa using this

theorem C44_expandedGriewank_false : ∃ x : Sol (n + 2), (∀ i, -100 ≤ x i ∧ x i ≤ 100) ∧ expandedGriewank x < 0 :=
  ⟨1, fun _ => by simp; norm_num, by rw [C44_expandedGriewank_partial.1]; push_cast; linarith [Nat.cast_nonneg (α := ℝ) n]⟩

/-- `Levy` is 0 at the documented point and negative at a point within its bounds. -/
theorem C44_levy_false : levy (n := n) 1 = 0 ∧ ∃ x : Sol 2, (∀ i, -10 ≤ x i ∧ x i ≤ 10) ∧ levy (n := 1) x < 0 := by
  constructor
  · simp [levy]
  · refine ⟨![9, 1], fun i => ?_, ?_⟩
    · fin_cases i <;> simp <;> norm_num
    · have h1 : sin (π * 3 + 1) = -sin 1 := by
        have : π * 3 + 1 = 1 + π + 2 * π := by ring
        rw [this, sin_add_two_pi, sin_add_pi]
      have h3 : sin (π * 3) = 0 := by
        have := sin_nat_mul_pi 3
        rw [mul_comm]
        exact_mod_cast this
      have h2 : (1 / 2 : ℝ) < sin 1 := by
        have := Real.sin_gt_sub_cube (x := 1) (by norm_num)
        linarith
      have e : (1 : ℝ) + (9 - 1) / 4 = 3 := by norm_num
      simp [levy, e, h1, h3]
      linarith

/-- In one dimension `Levy` has the documented minimum. -/
theorem C44_levy_one : HasMin (levy (n := 0)) 1 0 :=
  ⟨by simp [levy], fun x => by simp only [levy, univ_eq_empty, sum_empty]; positivity⟩

/-- `SchafferN4` is 1 at the documented point, not 0. -/
theorem C44_schafferN4_false : schafferN4 0 = 1 := by
  simp [schafferN4]

/-- The documented minimiser of `SchafferN4` is a maximiser. -/
theorem C44_schafferN4_max (x : Sol 2) : schafferN4 x ≤ schafferN4 0 := by
  rw [C44_schafferN4_false, schafferN4]
  have h1 : cos (sin (x 0 ^ 2 - x 1 ^ 2)) ^ 2 ≤ 1 := cos_sq_le_one _
  have h2 : 0 ≤ 0.001 * (x 0 ^ 2 + x 1 ^ 2) := by positivity
  generalize 0.001 * (x 0 ^ 2 + x 1 ^ 2) = t at h2 ⊢
  have h3 : (cos (sin (x 0 ^ 2 - x 1 ^ 2)) ^ 2 - 0.5) / (1 + t) ^ 2 ≤ 0.5 := by
    rw [div_le_iff₀ (by positivity)]
    nlinarith [sq_nonneg t]
  linarith

/-- Within its bounds the minimum of `CosineMixture` is `-0.9 D`, at `(1, …, 1)`. -/
theorem C44_cosineMixture_partial : cosineMixture (D := D) 1 = -0.9 * D ∧
    ∀ x : Sol D, (∀ i, -1 ≤ x i ∧ x i ≤ 1) → -0.9 * D ≤ cosineMixture x := by
  have hcos : ∀ y : ℝ, cos (5 * π * (1 - y)) = -cos (5 * π * y) := fun y => by
    rw [show 5 * π * (1 - y) = π - 5 * π * y + 2 * (2 * π) by ring, show (2 : ℝ) * (2 * π) = (2 : ℕ) * (2 * π) by norm_num,
      cos_add_nat_mul_two_pi, cos_pi_sub]
  have key : ∀ t : ℝ, 0 ≤ t → t ≤ 1 → -0.9 ≤ -0.1 * cos (5 * π * t) - t ^ 2 := fun t h0 h1 => by
    obtain ⟨y, rfl⟩ : ∃ y, t = 1 - y := ⟨1 - t, by ring⟩
    rw [hcos]
    rcases le_total 0.12 y with hy | hy
    · nlinarith [neg_one_le_cos (5 * π * y)]
    · have h2 := one_sub_sq_div_two_le_cos (x := 5 * π * y)
      have hpi : π ^ 2 ≤ 10 := by nlinarith [pi_lt_d2, pi_pos]
      have h3 : π ^ 2 * y ^ 2 ≤ 10 * y ^ 2 := mul_le_mul_of_nonneg_right hpi (sq_nonneg _)
      nlinarith [mul_nonneg (sub_nonneg.2 hy) (show (0 : ℝ) ≤ y by linarith)]
  refine ⟨?_, fun x hx => ?_⟩
  · have : cos (5 * π) = -1 := by simpa using hcos 0
    simp [cosineMixture, this]
    ring
  · have h : ∑ _i : Fin D, (-0.9 : ℝ) ≤ ∑ i, (-0.1 * cos (5 * π * x i) - x i ^ 2) := sum_le_sum fun i _ => by
      rcases le_total 0 (x i) with h | h
      · exact key _ h (hx i).2
      · have := key (-x i) (by linarith) (by linarith [(hx i).1])
        rwa [mul_neg, cos_neg, neg_sq] at this
    rw [sum_const, card_univ, Fintype.card_fin, nsmul_eq_mul, sum_sub_distrib, ← mul_sum] at h
    unfold cosineMixture
    linarith

/-- `CosineMixture` exceeds its documented maximum `-0.1 D` (at the origin) within its bounds. -/
theorem C44_cosineMixture_false : cosineMixture (D := n + 1) 0 = -0.1 * ((n + 1 : ℕ) : ℝ) ∧
    ∃ x : Sol (n + 1), (∀ i, -1 ≤ x i ∧ x i ≤ 1) ∧ -0.1 * ((n + 1 : ℕ) : ℝ) < cosineMixture x := by
  refine ⟨by simp [cosineMixture], fun _ => 1 / 5, fun _ => by norm_num, ?_⟩
  have : cos (5 * π * (1 / 5)) = -1 := by
    have : 5 * π * (1 / 5) = π := by ring
    rw [this, cos_pi]
  simp only [cosineMixture, this, sum_const, card_univ, Fintype.card_fin, nsmul_eq_mul]
  have : (0 : ℝ) < ((n + 1 : ℕ) : ℝ) := by positivity
  nlinarith

end NiaPy.Bench
