import Verif.Problems.Bounds
import Mathlib.Analysis.Real.Pi.Bounds

/-!
# The optima of benchmarks whose documented optimum is wrong (C44)

`Squares` and `Trig` refute the documented optima of HappyCat, Katsuura, Alpine2, SchafferN4 and Levy. Here is what the code has
instead: exactly for HappyCat and Katsuura, between two bounds for the others.
-/

namespace NiaPy.Bench
open Finset Real

variable {D n : ℕ}

/-! ## HappyCat -/

/-- One component of `HappyCat`, compared with its value at `-s`, where `s` is the square root of the dimension. -/
theorem happy_term {s u : ℝ} (hs : 1 ≤ s) : (0.5 - 1 / s) ≤ |u * u - s ^ 2| ^ (0.25 : ℝ) + (0.5 * u * u + u) / s ^ 2 := by
  have hs0 : 0 < s := by linarith
  have key : 0 ≤ |u * u - s ^ 2| ^ (0.25 : ℝ) + (0.5 * (u * u - s ^ 2) + (u + s)) / s ^ 2 := by
    have hr : 0 ≤ |u * u - s ^ 2| ^ (0.25 : ℝ) := rpow_nonneg (abs_nonneg _) _
    rcases le_or_gt (s ^ 2) (u * u) with h | h
    · refine add_nonneg hr (div_nonneg ?_ (by positivity))
      rcases le_or_gt 0 (u + s) with h1 | h1
      · nlinarith
      · nlinarith
    · have hu : 0 ≤ u + s := by nlinarith
      set d := s ^ 2 - u * u with hd
      have hd0 : 0 < d := by linarith
      have hds : d ≤ s ^ 2 := by nlinarith [mul_self_nonneg u]
      have e : |u * u - s ^ 2| = d := by rw [abs_of_neg (by linarith)]; ring
      rw [e]
      have h2 : d / (2 * s ^ 2) ≤ d ^ (0.25 : ℝ) := by
        rcases le_or_gt 1 d with h1 | h1
        · have : (1 : ℝ) ≤ d ^ (0.25 : ℝ) := one_le_rpow h1 (by norm_num)
          refine le_trans ?_ this
          rw [div_le_one (by positivity)]
          linarith
        · have : d ≤ d ^ (0.25 : ℝ) := by
            nth_rewrite 1 [← rpow_one d]
            exact rpow_le_rpow_of_exponent_ge hd0 h1.le (by norm_num)
          refine le_trans ?_ this
          exact div_le_self hd0.le (by nlinarith)
      have h3 : (0.5 * (u * u - s ^ 2) + (u + s)) / s ^ 2 = -(d / (2 * s ^ 2)) + (u + s) / s ^ 2 := by
        rw [hd]; field_simp; ring
      have h4 : 0 ≤ (u + s) / s ^ 2 := by positivity
      rw [h3]
      linarith
  have e : (0.5 * (u * u - s ^ 2) + (u + s)) / s ^ 2 = (0.5 * u * u + u) / s ^ 2 - (0.5 - 1 / s) := by field_simp; ring
  rw [e] at key
  linarith

/-- The minimum of `HappyCat` as it is implemented is at `(-√D, …, -√D)`, and its value is `(√D - 1)² / 2`: 0 in one dimension only. -/
theorem C44_happyCat_partial : HasMin (happyCat (D := n + 1) 0.25) (fun _ => -√((n + 1 : ℕ) : ℝ)) (0.5 * (√((n + 1 : ℕ) : ℝ) - 1) ^ 2) := by
  have hD : (1 : ℝ) ≤ ((n + 1 : ℕ) : ℝ) := by push_cast; linarith [Nat.cast_nonneg (α := ℝ) n]
  set s := √((n + 1 : ℕ) : ℝ) with hs
  have hss : s ^ 2 = ((n + 1 : ℕ) : ℝ) := sq_sqrt (by linarith)
  have h1 : 1 ≤ s := by rw [hs]; exact one_le_sqrt.2 hD
  have hs0 : s ≠ 0 := by linarith
  have form : ∀ x : Sol (n + 1), happyCat 0.25 x = (∑ i, (|x i * x i - s ^ 2| ^ (0.25 : ℝ) + (0.5 * x i * x i + x i) / s ^ 2)) + 0.5 := fun x => by
    simp only [happyCat, hss, sum_add_distrib]
  have hv : (∑ _i : Fin (n + 1), (0.5 - 1 / s)) + 0.5 = 0.5 * (s - 1) ^ 2 := by
    rw [sum_const, card_univ, Fintype.card_fin, nsmul_eq_mul, ← hss]
    field_simp
    ring
  refine ⟨?_, fun x => ?_⟩
  · rw [form, ← hv]
    congr 1
    refine sum_congr rfl fun i _ => ?_
    have : -s * -s - s ^ 2 = 0 := by ring
    rw [this, abs_zero, zero_rpow (by norm_num)]
    field_simp
    ring
  · rw [form, ← hv]
    have := sum_le_sum fun (i : Fin (n + 1)) (_ : i ∈ univ) => happy_term (u := x i) h1
    linarith

/-! ## Katsuura -/

/-- A function that rounds to an integer: exact on integers and monotone. Both hold for `np.round`. -/
structure Rounds (round : ℝ → ℝ) : Prop where
  int : ∀ k : ℤ, round k = k
  mono : Monotone round

theorem Rounds.ceil : Rounds fun x => (⌈x⌉ : ℝ) := ⟨fun k => by simp, fun a b h => by exact_mod_cast Int.ceil_mono h⟩

/-- The inner sum of `Katsuura` for one component. -/
noncomputable def katsuuraSum (round : ℝ → ℝ) (x : ℝ) : ℝ := ∑ k ∈ range 32, round (2 ^ (k + 1) * x) * (1 / 2) ^ (k + 1)

theorem katsuuraSum_int {round : ℝ → ℝ} (hr : Rounds round) (z : ℤ) : katsuuraSum round z = 32 * z := by
  have h : ∀ k : ℕ, round (2 ^ (k + 1) * z) * (1 / 2) ^ (k + 1) = z := fun k => by
    have := hr.int (2 ^ (k + 1) * z)
    push_cast at this
    rw [this, mul_right_comm, ← mul_pow]
    norm_num
  simp only [katsuuraSum, h]
  simp

theorem katsuuraSum_mono {round : ℝ → ℝ} (hr : Rounds round) : Monotone (katsuuraSum round) := fun a b h =>
  sum_le_sum fun k _ => mul_le_mul_of_nonneg_right (hr.mono (mul_le_mul_of_nonneg_left h (by positivity))) (by positivity)

/-- The least value of `Katsuura` on its box, in dimension `n + 1`. -/
noncomputable def katsuuraMin (n : ℕ) : ℝ := -((3200 * (n + 1) - 1) * ∏ i : Fin n, (3200 * (i.1 + 1 : ℝ) + 1))

/-- The minimum of `Katsuura` as it is implemented, within its bounds, is at `(100, …, 100, -100)`. -/
theorem C44_katsuura_partial {round : ℝ → ℝ} (hr : Rounds round) :
    katsuura round (Fin.snoc (fun _ : Fin n => (100 : ℝ)) (-100) : Sol (n + 1)) = katsuuraMin n ∧
    ∀ x : Sol (n + 1), (∀ i, -100 ≤ x i ∧ x i ≤ 100) → katsuuraMin n ≤ katsuura round x := by
  have form : ∀ x : Sol (n + 1), katsuura round x = ∏ i : Fin (n + 1), (katsuuraSum round (x i) * (i.1 + 1 : ℝ) + 1) := fun _ => rfl
  have hp : katsuuraSum round 100 = 3200 := by have := katsuuraSum_int hr 100; push_cast at this; rw [this]; norm_num
  have hm : katsuuraSum round (-100) = -3200 := by have := katsuuraSum_int hr (-100); push_cast at this; rw [this]; norm_num
  refine ⟨?_, fun x hx => ?_⟩
  · rw [form, Fin.prod_univ_castSucc, katsuuraMin]
    simp only [Fin.snoc_castSucc, Fin.snoc_last, hp, hm, Fin.val_castSucc, Fin.val_last]
    ring
  · rw [form]
    set u : Fin (n + 1) → ℝ := fun i => katsuuraSum round (x i) * (i.1 + 1 : ℝ) + 1 with hu
    have hu1 : ∀ i, u i ≤ 3200 * (i.1 + 1 : ℝ) + 1 := fun i => by
      have : katsuuraSum round (x i) ≤ 3200 := hp ▸ katsuuraSum_mono hr (hx i).2
      have := mul_le_mul_of_nonneg_right this (by positivity : (0 : ℝ) ≤ i.1 + 1)
      simp only [hu]; linarith
    have hu2 : ∀ i, -(3200 * (i.1 + 1 : ℝ) - 1) ≤ u i := fun i => by
      have : -3200 ≤ katsuuraSum round (x i) := hm ▸ katsuuraSum_mono hr (hx i).1
      have := mul_le_mul_of_nonneg_right this (by positivity : (0 : ℝ) ≤ i.1 + 1)
      simp only [hu]; linarith
    have habs : ∀ i, |u i| ≤ 3200 * (i.1 + 1 : ℝ) + 1 := fun i => abs_le.2 ⟨by linarith [hu2 i], hu1 i⟩
    have hP : (0 : ℝ) ≤ ∏ i : Fin n, (3200 * (i.1 + 1 : ℝ) + 1) := prod_nonneg fun i _ => by positivity
    have hmin : katsuuraMin n ≤ 0 := neg_nonpos.2 (mul_nonneg (by linarith [Nat.cast_nonneg (α := ℝ) n]) hP)
    rcases le_or_gt 0 (∏ i, u i) with h | h
    · linarith
    · obtain ⟨j, hj⟩ : ∃ j, u j < 0 := by
        by_contra hc
        push Not at hc
        exact absurd (prod_nonneg fun i _ => hc i) (not_le.2 h)
      -- the other factors at their bounds
      have h1 : |∏ i, u i| ≤ (3200 * (j.1 + 1 : ℝ) - 1) * ∏ i ∈ univ.erase j, (3200 * (i.1 + 1 : ℝ) + 1) := by
        rw [abs_prod, ← mul_prod_erase _ _ (mem_univ j)]
        refine mul_le_mul ?_ (prod_le_prod (fun i _ => abs_nonneg _) fun i _ => habs i) (prod_nonneg fun i _ => abs_nonneg _) ?_
        · rw [abs_of_neg hj]; linarith [hu2 j]
        · linarith [Nat.cast_nonneg (α := ℝ) j.1]
      set T : ℝ := ∏ i : Fin (n + 1), (3200 * (i.1 + 1 : ℝ) + 1) with hT
      have e1 : (3200 * (j.1 + 1 : ℝ) + 1) * ∏ i ∈ univ.erase j, (3200 * (i.1 + 1 : ℝ) + 1) = T := mul_prod_erase univ (fun i : Fin (n + 1) => 3200 * (i.1 + 1 : ℝ) + 1) (mem_univ j)
      have e2 : (3200 * (n + 1 : ℝ) + 1) * ∏ i : Fin n, (3200 * (i.1 + 1 : ℝ) + 1) = T := by
        rw [hT, Fin.prod_univ_castSucc, mul_comm]
        simp
      have hjn : (j.1 : ℝ) ≤ n := by exact_mod_cast Nat.lt_succ_iff.1 j.2
      have hE : (0 : ℝ) ≤ ∏ i ∈ univ.erase j, (3200 * (i.1 + 1 : ℝ) + 1) := prod_nonneg fun i _ => by positivity
      set E := ∏ i ∈ univ.erase j, (3200 * (i.1 + 1 : ℝ) + 1)
      set Q := ∏ i : Fin n, (3200 * (i.1 + 1 : ℝ) + 1)
      have hQE : Q ≤ E := by
        have : (3200 * (n + 1 : ℝ) + 1) * Q ≤ (3200 * (n + 1 : ℝ) + 1) * E := by
          rw [e2, ← e1]
          exact mul_le_mul_of_nonneg_right (by linarith) hE
        exact le_of_mul_le_mul_left this (by positivity)
      have h2 : (3200 * (j.1 + 1 : ℝ) - 1) * E ≤ (3200 * (n + 1 : ℝ) - 1) * Q := by linarith
      have h3 := neg_abs_le (∏ i, u i)
      rw [katsuuraMin]
      linarith

/-! ## SchafferN4 -/

theorem cos_one_gt : (0.5399 : ℝ) ≤ cos 1 := by
  have h0 := (abs_le.1 (cos_bound (by norm_num : |(1 / 16 : ℝ)| ≤ 1))).1
  rw [abs_of_pos (by norm_num : (0 : ℝ) < 1 / 16)] at h0
  have c4 : 0.998046 ≤ cos (1 / 16) := by norm_num at h0 ⊢; linarith
  have e3 : cos (1 / 8) = 2 * cos (1 / 16) ^ 2 - 1 := by rw [← cos_two_mul]; norm_num
  have e2 : cos (1 / 4) = 2 * cos (1 / 8) ^ 2 - 1 := by rw [← cos_two_mul]; norm_num
  have e1 : cos (1 / 2) = 2 * cos (1 / 4) ^ 2 - 1 := by rw [← cos_two_mul]; norm_num
  have e0 : cos 1 = 2 * cos (1 / 2) ^ 2 - 1 := by rw [← cos_two_mul]; norm_num
  have c3 : 0.992191 ≤ cos (1 / 8) := by rw [e3]; nlinarith
  have c2 : 0.968885 ≤ cos (1 / 4) := by rw [e2]; nlinarith
  have c1 : 0.877475 ≤ cos (1 / 2) := by rw [e1]; nlinarith
  rw [e0]; nlinarith

theorem cos_one_lt : cos 1 ≤ (0.5409 : ℝ) := by
  have h0 := (abs_le.1 (cos_bound (by norm_num : |(1 / 4 : ℝ)| ≤ 1))).2
  rw [abs_of_pos (by norm_num : (0 : ℝ) < 1 / 4)] at h0
  have c2 : cos (1 / 4) ≤ 0.968954 := by norm_num at h0 ⊢; linarith
  have p2 : 0 ≤ cos (1 / 4) := cos_nonneg_of_neg_pi_div_two_le_of_le (by linarith [pi_gt_three]) (by linarith [pi_gt_three])
  have p1 : 0 ≤ cos (1 / 2) := cos_nonneg_of_neg_pi_div_two_le_of_le (by linarith [pi_gt_three]) (by linarith [pi_gt_three])
  have e1 : cos (1 / 2) = 2 * cos (1 / 4) ^ 2 - 1 := by rw [← cos_two_mul]; norm_num
  have e0 : cos 1 = 2 * cos (1 / 2) ^ 2 - 1 := by rw [← cos_two_mul]; norm_num
  have c1 : cos (1 / 2) ≤ 0.877744 := by rw [e1]; nlinarith
  rw [e0]; nlinarith

/-- The minimum of `SchafferN4` is between 0.2914 and 0.2933 (the documented value is 0, and the documented point a maximum); a point
within the bounds where it is below 0.2933 is `(0, √(π/2))`. -/
theorem C44_schafferN4_partial : (∀ x : Sol 2, 0.2914 ≤ schafferN4 x) ∧ InBox .schafferN2 (![0, √(π / 2)] : Sol 2) ∧
    schafferN4 ![0, √(π / 2)] ≤ 0.2933 := by
  have hl := cos_one_gt
  have hu := cos_one_lt
  refine ⟨fun x => ?_, fun i => ?_, ?_⟩
  · have h1 : cos 1 ≤ cos (sin (x 0 ^ 2 - x 1 ^ 2)) := by
      rw [← cos_abs (sin _)]
      exact cos_le_cos_of_nonneg_of_le_pi (abs_nonneg _) (by linarith [pi_gt_three]) (abs_sin_le_one _)
    have h2 : 0.2914 - 0.5 ≤ cos (sin (x 0 ^ 2 - x 1 ^ 2)) ^ 2 - 0.5 := by nlinarith
    have h3 : (1 : ℝ) ≤ (1 + 0.001 * (x 0 ^ 2 + x 1 ^ 2)) ^ 2 := one_le_pow₀ (by nlinarith [sq_nonneg (x 0), sq_nonneg (x 1)])
    have h4 : (0.2914 - 0.5 : ℝ) ≤ (cos (sin (x 0 ^ 2 - x 1 ^ 2)) ^ 2 - 0.5) / (1 + 0.001 * (x 0 ^ 2 + x 1 ^ 2)) ^ 2 := by
      rw [le_div_iff₀ (by linarith)]
      nlinarith
    unfold schafferN4
    linarith
  · have h0 := sqrt_nonneg (π / 2)
    have h1 : √(π / 2) ≤ 2 := sqrt_le_iff.2 ⟨by norm_num, by linarith [pi_lt_four]⟩
    have h : ∀ y : ℝ, 0 ≤ y → y ≤ 2 → lower .schafferN2 2 ≤ y ∧ y ≤ upper .schafferN2 2 := fun y h0 h1 => by
      simp only [lower, upper]
      constructor <;> linarith
    fin_cases i
    · exact h 0 le_rfl (by norm_num)
    · exact h _ h0 h1
  · have hs : √(π / 2) ^ 2 = π / 2 := sq_sqrt (by positivity)
    have e : sin (0 ^ 2 - π / 2) = -1 := by rw [zero_pow (by norm_num), zero_sub, sin_neg, sin_pi_div_two]
    simp only [schafferN4, Matrix.cons_val_zero, Matrix.cons_val_one, hs, e, cos_neg]
    have h1 : cos 1 ^ 2 - 0.5 ≤ -0.2074 := by nlinarith
    have hp := pi_lt_d6
    have hd : (1 + 0.001 * (0 ^ 2 + π / 2)) ^ 2 ≤ 1.00315 := by nlinarith [pi_pos]
    have hd0 : (0 : ℝ) < (1 + 0.001 * (0 ^ 2 + π / 2)) ^ 2 := by positivity
    have : (cos 1 ^ 2 - 0.5) / (1 + 0.001 * (0 ^ 2 + π / 2)) ^ 2 ≤ -0.2067 := by
      rw [div_le_iff₀ hd0]
      nlinarith
    linarith

/-! ## Alpine2 -/

theorem sin_third_hill (u : ℝ) : sin (u + 2.5 * π) = cos u := by
  have h : u + 2.5 * π = (u + π / 2) + (1 : ℕ) * (2 * π) := by push_cast; ring
  rw [h, sin_add_nat_mul_two_pi, sin_add_pi_div_two]

/-- One factor of `Alpine2` on its box. -/
theorem alpine_factor {x : ℝ} (h0 : 0 ≤ x) (h1 : x ≤ 10) : |√x * sin x| ≤ 2.8085 := by
  have hp := pi_gt_d6
  have hp' := pi_lt_d6
  rw [abs_mul, abs_of_nonneg (sqrt_nonneg x)]
  have hsq : ∀ c : ℝ, 0 ≤ c → |sin x| ≤ c → x * c ^ 2 ≤ 2.8085 ^ 2 → √x * |sin x| ≤ 2.8085 := fun c hc h h2 => by
    have : √x * c ≤ 2.8085 := by
      refine abs_le_of_sq_le_sq' ?_ (by norm_num) |>.2
      rw [mul_pow, sq_sqrt h0]
      exact h2
    exact (mul_le_mul_of_nonneg_left h (sqrt_nonneg x)).trans this
  by_cases hx : x ≤ 7.8876
  · exact hsq 1 (by norm_num) (abs_sin_le_one _) (by nlinarith)
  · push Not at hx
    obtain ⟨u, rfl⟩ : ∃ u, x = u + 2.5 * π := ⟨x - 2.5 * π, by ring⟩
    rw [sin_third_hill] at *
    have hu0 : 0 < u := by linarith
    have hu2 : u ≤ 2.147 := by linarith
    by_cases hu1 : u ≤ 1
    · have hc := (abs_le.1 (cos_bound (abs_le.2 ⟨by linarith, hu1⟩ : |u| ≤ 1))).2
      rw [abs_of_pos hu0] at hc
      have hc0 : 0 ≤ cos u := cos_nonneg_of_neg_pi_div_two_le_of_le (by linarith) (by linarith)
      have hx' : u + 2.5 * π ≤ u + 7.853984 := by linarith
      have e : u ^ 4 = u ^ 2 * u ^ 2 := by ring
      have h2 : 0 ≤ u ^ 2 := sq_nonneg u
      by_cases hs : u ≤ 0.2
      · have hu4 : u ^ 2 ≤ 0.04 := by nlinarith
        have hle : cos u ≤ 1 - 0.4979 * u ^ 2 := by nlinarith
        refine hsq (1 - 0.4979 * u ^ 2) (by nlinarith) (by rw [abs_of_nonneg hc0]; exact hle) ?_
        have h3 : (1 - 0.4979 * u ^ 2) ^ 2 ≤ 1 - 0.985 * u ^ 2 := by nlinarith
        have h4 : (u + 2.5 * π) * (1 - 0.4979 * u ^ 2) ^ 2 ≤ (u + 7.853984) * (1 - 0.985 * u ^ 2) :=
          mul_le_mul hx' h3 (sq_nonneg _) (by linarith)
        have h5 : 0 ≤ u ^ 3 := by positivity
        nlinarith [sq_nonneg (u - 0.0646)]
      · push Not at hs
        have hu4 : u ^ 2 ≤ 1 := by nlinarith
        have hle : cos u ≤ 1 - 0.4479 * u ^ 2 := by nlinarith
        refine hsq (1 - 0.4479 * u ^ 2) (by nlinarith) (by rw [abs_of_nonneg hc0]; exact hle) ?_
        have h3 : (1 - 0.4479 * u ^ 2) ^ 2 ≤ 1 - 0.695 * u ^ 2 := by nlinarith
        have h4 : (u + 2.5 * π) * (1 - 0.4479 * u ^ 2) ^ 2 ≤ (u + 7.853984) * (1 - 0.695 * u ^ 2) :=
          mul_le_mul hx' h3 (sq_nonneg _) (by linarith)
        have h5 : 0 ≤ u ^ 3 := by positivity
        nlinarith
    · push Not at hu1
      have h09 : cos 0.9 ≤ 0.63 := by
        have := (abs_le.1 (cos_bound (by norm_num : |(0.9 : ℝ)| ≤ 1))).2
        rw [abs_of_pos (by norm_num : (0 : ℝ) < 0.9)] at this
        norm_num at this ⊢
        linarith
      refine hsq 0.63 (by norm_num) (abs_le.2 ⟨?_, ?_⟩) (by nlinarith)
      · have : cos (π - u) ≤ cos 0.9 := cos_le_cos_of_nonneg_of_le_pi (by norm_num) (by linarith) (by linarith)
        rw [cos_pi_sub] at this
        linarith
      · exact (cos_le_cos_of_nonneg_of_le_pi (by norm_num) (by linarith) (by linarith)).trans h09

/-- What the documentation of `Alpine2` calls the minimum is the maximum on the box, up to the digits given; the values on the box
are between `-2.8085 ^ D` and `2.8085 ^ D`. -/
theorem C44_alpine2_partial : (∀ x : Sol D, (∀ i, 0 ≤ x i ∧ x i ≤ 10) → |alpine2 x| ≤ 2.8085 ^ D) ∧
    2.808 ^ D ≤ alpine2 (D := D) fun _ => 7.917 := by
  constructor
  · intro x hx
    rw [alpine2, abs_prod]
    calc ∏ i, |√(x i) * sin (x i)| ≤ ∏ _i : Fin D, (2.8085 : ℝ) := prod_le_prod (fun _ _ => abs_nonneg _) fun i _ => alpine_factor (hx i).1 (hx i).2
      _ = 2.8085 ^ D := by simp
  · have h : (2.808 : ℝ) ≤ √7.917 * sin 7.917 := by
      have hp := pi_gt_d6
      have hp' := pi_lt_d6
      have h1 : (2.8137 : ℝ) ≤ √7.917 := le_sqrt_of_sq_le (by norm_num)
      obtain ⟨u, hu⟩ : ∃ u, (7.917 : ℝ) = u + 2.5 * π := ⟨7.917 - 2.5 * π, by ring⟩
      have hc : 0.998 ≤ sin 7.917 := by
        rw [hu, sin_third_hill]
        have := one_sub_sq_div_two_le_cos (x := u)
        nlinarith
      nlinarith
    calc (2.808 : ℝ) ^ D = ∏ _i : Fin D, (2.808 : ℝ) := by simp
      _ ≤ ∏ _i : Fin D, (√7.917 * sin 7.917) := prod_le_prod (fun _ _ => by norm_num) fun _ _ => h
      _ = _ := rfl

/-! ## Levy -/

/-- A middle term of `Levy` on its box, where `y` is `(x - 1) / 4`. -/
theorem levy_term {y : ℝ} (h0 : -2.75 ≤ y) (h1 : y ≤ 2.25) : -45.5625 ≤ y ^ 2 * (1 + 10 * sin (π * (1 + y) + 1)) := by
  have hp := pi_gt_d6
  have hp' := pi_lt_d6
  have e : π * (1 + y) + 1 = (π * y + 1) + π := by ring
  rw [e, sin_add_pi]
  by_cases hy : -2.25 ≤ y
  · have := sin_le_one (π * y + 1)
    have : y ^ 2 ≤ 5.0625 := by nlinarith
    nlinarith [sq_nonneg y]
  · push Not at hy
    have hs : sin (π * y + 1) ≤ 0.22 := by
      rw [← sin_add_two_pi]
      rcases le_or_gt (π * y + 1 + 2 * π) 0 with h | h
      · exact (sin_nonpos_of_nonpos_of_neg_pi_le h (by nlinarith)).trans (by norm_num)
      · exact (sin_le h.le).trans (by nlinarith)
    have : y ^ 2 ≤ 7.5625 := by nlinarith
    nlinarith [sq_nonneg y]

/-- The least value of `Levy` as it is implemented, within its bounds, falls with the dimension: between `-45.5625 (D - 1)` and
`1 - 44.3 (D - 1)`, the latter at `(10, …, 10, 1)`. -/
theorem C44_levy_partial : (∀ x : Sol (n + 1), (∀ i, -10 ≤ x i ∧ x i ≤ 10) → -45.5625 * (n : ℝ) ≤ levy x) ∧
    levy (Fin.snoc (fun _ : Fin n => (10 : ℝ)) 1 : Sol (n + 1)) ≤ 1 - 44.3 * n := by
  constructor
  · intro x hx
    have h1 : ∑ _i : Fin n, (-45.5625 : ℝ) ≤ ∑ i : Fin n, (1 + (x i.castSucc - 1) / 4 - 1) ^ 2 * (1 + 10 * sin (π * (1 + (x i.castSucc - 1) / 4) + 1)) :=
      sum_le_sum fun i _ => by
        have := levy_term (y := (x i.castSucc - 1) / 4) (by linarith [(hx i.castSucc).1]) (by linarith [(hx i.castSucc).2])
        have e : 1 + (x i.castSucc - 1) / 4 - 1 = (x i.castSucc - 1) / 4 := by ring
        rw [e]
        exact this
    have h2 : (0 : ℝ) ≤ sin (π * (1 + (x 0 - 1) / 4)) ^ 2 := sq_nonneg _
    have h3 : (0 : ℝ) ≤ (1 + (x (Fin.last n) - 1) / 4 - 1) ^ 2 * (1 + sin (2 * π * (1 + (x (Fin.last n) - 1) / 4)) ^ 2) := by positivity
    rw [sum_const, card_univ, Fintype.card_fin, nsmul_eq_mul] at h1
    simp only [levy]
    linarith
  · have hp := pi_gt_d6
    have hp' := pi_lt_d6
    have hs : sin (π * (1 + (10 - 1) / 4) + 1) ≤ -0.9765 := by
      obtain ⟨u, hu⟩ : ∃ u, π / 4 + 1 = u + π / 2 := ⟨π / 4 + 1 - π / 2, by ring⟩
      have e : π * (1 + (10 - 1) / 4) + 1 = (u + π / 2 + π) + 2 * π := by rw [← hu]; ring
      rw [e, sin_add_two_pi, sin_add_pi, sin_add_pi_div_two]
      have := one_sub_sq_div_two_le_cos (x := u)
      nlinarith
    have h1 : ∑ _i : Fin n, ((1 + (10 - 1) / 4 - 1 : ℝ)) ^ 2 * (1 + 10 * sin (π * (1 + (10 - 1) / 4) + 1)) ≤ ∑ _i : Fin n, (-44.3 : ℝ) :=
      sum_le_sum fun i _ => by nlinarith
    have h2 : sin (π * (1 + ((Fin.snoc (fun _ : Fin n => (10 : ℝ)) 1 : Sol (n + 1)) 0 - 1) / 4)) ^ 2 ≤ 1 := sin_sq_le_one _
    have h3 : ∑ _i : Fin n, (-44.3 : ℝ) = -44.3 * n := by
      rw [sum_const, card_univ, Fintype.card_fin, nsmul_eq_mul, mul_comm]
    rw [h3] at h1
    simp only [levy, Fin.snoc_castSucc, Fin.snoc_last, sub_self, zero_div, add_zero]
    linarith

/-- A rounding function, and points of the boxes. -/
example : Rounds fun x => (⌈x⌉ : ℝ) := Rounds.ceil

end NiaPy.Bench
