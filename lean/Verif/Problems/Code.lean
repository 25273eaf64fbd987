import Verif.Problems.NumPy
import Verif.Problems.Schwefel

/-!
# The benchmarks as they are written (`niapy/problems`): C88

Every `_evaluate` method, with the array operations of `Verif.Problems.NumPy`, and the proof that it computes the function studied in
`Verif.Problems.Squares`, `Trig` and `Schwefel`, without exceptions, divisions by zero and square roots of negative numbers. `D` is
`self.dimension`, which `Problem.evaluate` (problem.py:44-57) has compared with the length of the solution.
-/

namespace NiaPy.Bench.Code
open Finset Real Np

variable {D n : ℕ}

theorem rpow3 (a : ℝ) : a ^ (3 : ℝ) = a ^ 3 := by rw [← rpow_natCast]; norm_num
theorem rpow4 (a : ℝ) : a ^ (4 : ℝ) = a ^ 4 := by rw [← rpow_natCast]; norm_num
theorem rpow5 (a : ℝ) : a ^ (5 : ℝ) = a ^ 5 := by rw [← rpow_natCast]; norm_num
theorem rpow6 (a : ℝ) : a ^ (6 : ℝ) = a ^ 6 := by rw [← rpow_natCast]; norm_num

/-- Computes an expression on arrays of numbers. -/
macro "np" : tactic => `(tactic| (simp (discharger := (intros; first | trivial | exact powOk_ofNat _ _ | exact powOk_nat _ _ | exact powOk_pos (by positivity) _ | exact powOk_nonneg (by positivity) (by positivity) | positivity | apply_assumption)) only [vec, num, Np.add_def, Np.sub_def,
  Np.mul_def, Np.div_def, power, neg_arr, ofNat_def, one_def, ofScientific_def, fn_arr, sum_arr, prod_arr, sum0_arr, amax_arr, tile_arr, T_arr, tril_arr, from_one, from_two, init_arr,
  item_zero, item_one, lastItem_arr, arange_zero, arange_one, arange_two, roll_one, roll_neg, same, left, right, matRow, colRow, colMat, matCol, rpow_two, rpow3, rpow4, rpow5, rpow6, rpow_natCast,
  Fin.isValue, univ_unique, Fin.default_eq_zero, sum_singleton, prod_singleton, implies_true, sqrt_arr, log10_arr, select_arr]; try push_cast; try rfl))

/-! ## Without trigonometric functions -/

/-- `Sphere._evaluate` (sphere.py:72-73) -/
noncomputable def sphere (x : V) : V := sum (x ** 2)
theorem C88_sphere (x : Sol D) : sphere (vec x) = num (Bench.sphere x) := by
  unfold sphere Bench.sphere; np

/-- `Sphere2._evaluate` (sphere.py:134-136) -/
noncomputable def sphere2 (D : ℕ) (x : V) : V :=
  let indices := arange 2 (D + 2)
  sum (power (fn abs x) indices)
theorem C88_sphere2 (x : Sol D) : sphere2 D (vec x) = num (Bench.sphere2 x) := by
  unfold sphere2 Bench.sphere2; np

/-- `Sphere3._evaluate` (sphere.py:197-200) -/
noncomputable def sphere3 (D : ℕ) (x : V) : V :=
  let xMatrix := tile D x
  let val := sum0 (tril xMatrix ** 2)
  sum val
theorem C88_sphere3 (x : Sol D) : sphere3 D (vec x) = num (Bench.sphere3 x) := by
  unfold sphere3 Bench.sphere3; np

/-- `SumSquares._evaluate` (sum_squares.py:71-72) -/
noncomputable def sumSquares (D : ℕ) (x : V) : V := sum (arange 1 (D + 1) * x ** 2)
theorem C88_sumSquares (x : Sol D) : sumSquares D (vec x) = num (Bench.sumSquares x) := by
  unfold sumSquares Bench.sumSquares; np

/-- `ChungReynolds._evaluate` (chung_reynolds.py:72-73) -/
noncomputable def chungReynolds (x : V) : V := sum (x ** 2) ** 2
theorem C88_chungReynolds (x : Sol D) : chungReynolds (vec x) = num (Bench.chungReynolds x) := by
  unfold chungReynolds Bench.chungReynolds; np

/-- `SchumerSteiglitz._evaluate` (schumer_steiglitz.py:72-73) -/
noncomputable def schumerSteiglitz (x : V) : V := sum (x ** 4)
theorem C88_schumerSteiglitz (x : Sol D) : schumerSteiglitz (vec x) = num (Bench.schumerSteiglitz x) := by
  unfold schumerSteiglitz Bench.schumerSteiglitz; np

/-- `BentCigar._evaluate` (bent_cigar.py:71-72); `np.square` is a power. -/
noncomputable def bentCigar (x : V) : V := item 0 x ** 2 + 1000000 * sum («from» 1 x ** 2)
theorem C88_bentCigar (x : Sol (n + 1)) : bentCigar (vec x) = num (Bench.bentCigar x) := by
  unfold bentCigar Bench.bentCigar; np

/-- `Ridge._evaluate` (ridge.py:70-72) -/
noncomputable def ridge (D : ℕ) (x : V) : V :=
  let inner := collect D fun i => sum (slice 0 (i + 1) 1 x)
  sum (inner ** 2)

/-- `Zakharov._evaluate` (zakharov.py:70-73) -/
noncomputable def zakharov (D : ℕ) (x : V) : V :=
  let sum1 := sum (x * x)
  let sum2 := sum (0.5 * arange 1 (D + 1) * x)
  sum1 + sum2 ** 2 + sum2 ** 4
theorem C88_zakharov (x : Sol D) : zakharov D (vec x) = num (Bench.zakharov x) := by
  unfold zakharov Bench.zakharov; np

/-- `Schwefel221._evaluate` (schwefel.py:135-136) -/
noncomputable def schwefel221 (x : V) : V := amax (fn abs x)
theorem C88_schwefel221 (x : Sol (n + 1)) : schwefel221 (vec x) = num (Bench.schwefel221 x) := by
  unfold schwefel221 Bench.schwefel221; np

/-- `Schwefel222._evaluate` (schwefel.py:200-201) -/
noncomputable def schwefel222 (x : V) : V := sum (fn abs x) + prod (fn abs x)
theorem C88_schwefel222 (x : Sol D) : schwefel222 (vec x) = num (Bench.schwefel222 x) := by
  unfold schwefel222 Bench.schwefel222; np

/-- `np.floor` -/
noncomputable def floor (a : V) : V := fn (fun t => (⌊t⌋ : ℝ)) a

/-- `Step._evaluate` (step.py:75-76) -/
noncomputable def step (x : V) : V := sum (floor (fn abs x))
theorem C88_step (x : Sol D) : step (vec x) = num (Bench.step x) := by
  unfold step floor Bench.step; np

/-- `Step2._evaluate` (step.py:141-142) -/
noncomputable def step2 (x : V) : V := sum (floor (x + 0.5) ** 2)
theorem C88_step2 (x : Sol D) : step2 (vec x) = num (Bench.step2 x) := by
  unfold step2 floor Bench.step2; np

/-- `Step3._evaluate` (step.py:207-208) -/
noncomputable def step3 (x : V) : V := sum (floor (x ** 2))
theorem C88_step3 (x : Sol D) : step3 (vec x) = num (Bench.step3 x) := by
  unfold step3 floor Bench.step3; np

/-- `Stepint._evaluate` (stepint.py:72-73) -/
noncomputable def stepint (x : V) : V := 25 + sum (floor x)
theorem C88_stepint (x : Sol D) : stepint (vec x) = num (Bench.stepint x) := by
  unfold stepint floor Bench.stepint; np

/-- `Elliptic._evaluate` (elliptic.py:71-73) -/
noncomputable def elliptic (D : ℕ) (x : V) : V :=
  let indices := arange 0 D
  sum (1000000 ** (indices / num (D - 1)) * x ** 2)

/-- `Powell._evaluate` (powell.py:71-81) -/
noncomputable def powell (x : V) : V :=
  let x1 := every 0 4 x
  let x2 := every 1 4 x
  let x3 := every 2 4 x
  let x4 := every 3 4 x
  let term1 := (x1 + 10 * x2) ** 2
  let term2 := 5 * (x3 - x4) ** 2
  let term3 := (x2 - 2 * x3) ** 4
  let term4 := 10 * (x1 - x4) ** 4
  sum (term1 + term2 + term3 + term4)

/-- `Rosenbrock._evaluate` (rosenbrock.py:74-75); there is one axis to sum over. -/
noncomputable def rosenbrock (x : V) : V := sum (100 * («from» 1 x - init x ** 2) ** 2 + (1 - init x) ** 2)
theorem C88_rosenbrock (x : Sol (n + 1)) : rosenbrock (vec x) = num (Bench.rosenbrock x) := by
  unfold rosenbrock Bench.rosenbrock; np

/-- `Qing._evaluate` (qing.py:74-75) -/
noncomputable def qing (D : ℕ) (x : V) : V := sum (power (x ** 2 - arange 1 (D + 1)) 2)
theorem C88_qing (x : Sol D) : qing D (vec x) = num (Bench.qing x) := by
  unfold qing Bench.qing; np

/-- `Quintic._evaluate` (quintic.py:77-78) -/
noncomputable def quintic (x : V) : V := sum (fn abs (x ** 5 - 3 * x ** 4 + 4 * x ** 3 + 2 * x ** 2 - 10 * x - 4))
theorem C88_quintic (x : Sol D) : quintic (vec x) = num (Bench.quintic x) := by
  unfold quintic Bench.quintic; np

/-- `Perm._evaluate` (perm.py:72-77) -/
noncomputable def perm (D : ℕ) (beta : ℝ) (x : V) : V :=
  let ii := arange 1 (D + 1)
  let jj := tile D ii
  let xMatrix := tile D x
  let inner := sum0 ((jj + num beta) * (power xMatrix ii - power (1 / jj) ii))
  sum (inner ** 2)
theorem C88_perm (beta : ℝ) (x : Sol D) : perm D beta (vec x) = num (Bench.perm beta x) := by
  unfold perm Bench.perm; np

/-- `DixonPrice._evaluate` (dixon_price.py:71-74) -/
noncomputable def dixonPrice (D : ℕ) (x : V) : V :=
  let indices := arange 2 D
  let val := sum (indices * (2 * «from» 2 x ** 2 - slice 1 (D - 1) 1 x) ** 2)
  (item 0 x - 1) ** 2 + val
theorem C88_dixonPrice (x : Sol (n + 2)) : dixonPrice (n + 2) (vec x) = num (Bench.dixonPrice x) := by
  have h (u : Fin 1 → Fin (n + 2) → ℝ) : slice 1 (n + 2 - 1) 1 (arr 1 (n + 2) u) = arr 1 n fun _ j => u 0 j.castSucc.succ :=
    slice_arr u (fun j => j.castSucc.succ) (by simp) fun j => by simp; omega
  unfold dixonPrice Bench.dixonPrice
  simp only [vec, h]
  np

/-- With one component nothing is summed. -/
theorem C88_dixonPrice_one (x : Sol 1) : dixonPrice 1 (vec x) = num ((x 0 - 1) ^ 2) := by
  have h (u : Fin 1 → Fin 1 → ℝ) : slice 1 (1 - 1) 1 (arr 1 1 u) = arr 1 0 fun _ j => j.elim0 := by
    rw [slice_arr (n := 0) u (fun j => j.elim0) (by simp) fun j => j.elim0]
    congr 1; funext _ j; exact j.elim0
  have h2 (u : Fin 1 → Fin 1 → ℝ) : «from» 2 (arr 1 1 u) = arr 1 0 fun _ j => j.elim0 := by
    unfold «from»
    rw [slice_arr (n := 0) u (fun j => j.elim0) (by rw [size_arr]; rfl) fun j => j.elim0]
    congr 1; funext _ j; exact j.elim0
  have h3 : arange 2 1 = arr 1 0 fun _ j => j.elim0 := by
    refine ok_ext rfl rfl fun i j hi hj => ?_
    exact absurd hj (by simp)
  unfold dixonPrice
  simp only [vec, h, h2, h3]
  np
  simp

/-- `Trid._evaluate` (trid.py:71-74) -/
noncomputable def trid (x : V) : V :=
  let sum1 := sum ((x - 1) ** 2)
  let sum2 := sum («from» 1 x * init x)
  sum1 - sum2
theorem C88_trid (x : Sol (n + 1)) : trid (vec x) = num (Bench.trid x) := by
  unfold trid Bench.trid; np

/-- `StyblinskiTang._evaluate` (styblinski_tang.py:76-77) -/
noncomputable def styblinskiTang (x : V) : V := 0.5 * sum (x ** 4 - 16 * x ** 2 + 5 * x)
theorem C88_styblinskiTang (x : Sol D) : styblinskiTang (vec x) = num (Bench.styblinskiTang x) := by
  unfold styblinskiTang Bench.styblinskiTang; np

/-- `Discus._evaluate` (discus.py:71-72) -/
noncomputable def discus (x : V) : V := item 0 x * 1000000 + sum («from» 1 x ** 2)
theorem C88_discus (x : Sol (n + 1)) : discus (vec x) = num (Bench.discus x) := by
  unfold discus Bench.discus; np

/-- `HappyCat._evaluate` (happy_cat.py:77-80) -/
noncomputable def happyCat (D : ℕ) (alpha : ℝ) (x : V) : V :=
  let val1 := sum (fn abs (x * x - num D) ** num alpha)
  let val2 := sum ((0.5 * x * x + x) / num D)
  val1 + val2 + 0.5
theorem C88_happyCat {alpha : ℝ} (ha : 0 ≤ alpha) (x : Sol (n + 1)) : happyCat (n + 1) alpha (vec x) = num (Bench.happyCat alpha x) := by
  unfold happyCat Bench.happyCat; np

/-- `HGBat._evaluate` (hgbat.py:70-73) -/
noncomputable def hgbat (D : ℕ) (x : V) : V :=
  let val1 := sum (x ** 2)
  let val2 := sum x
  sqrt (fn abs (val1 * val1 - val2 ** 2)) + (0.5 * val1 + val2) / num D + 0.5
theorem C88_hgbat (x : Sol (n + 1)) : hgbat (n + 1) (vec x) = num (Bench.hgbat x) := by
  unfold hgbat Bench.hgbat; np

/-- `Katsuura._evaluate` (katsuura.py:69-73); `np.atleast_2d` makes a row, `.T` a column. -/
noncomputable def katsuura (D : ℕ) (round : ℝ → ℝ) (x : V) : V :=
  let k := T (arange 1 33)
  let i := arange 1 (D + 1)
  let inner := fn round (2 ** k * x) * 2 ** (-k)
  prod (sum0 inner * i + 1)
theorem C88_katsuura (round : ℝ → ℝ) (x : Sol D) : katsuura D round (vec x) = num (Bench.katsuura round x) := by
  unfold katsuura Bench.katsuura; np
  congr 1; funext _ _
  refine prod_congr rfl fun j _ => ?_
  rw [Finset.sum_range (fun k => round (2 ^ (k + 1) * x j) * (1 / 2) ^ (k + 1))]
  congr 2
  refine sum_congr rfl fun k _ => ?_
  congr 1
  have e : ((k.1 : ℝ) + 1) = ((k.1 + 1 : ℕ) : ℝ) := by push_cast; rfl
  rw [e, rpow_neg (by norm_num), rpow_natCast, one_div, inv_pow]

theorem C88_ridge (x : Sol D) : ridge D (vec x) = num (Bench.ridge x) := by
  have h : (collect D fun i => sum (slice 0 (i + 1) 1 (vec x))) = vec (n := D) fun i => ∑ j : Fin D, if j ≤ i then x j else 0 := by
    refine collect_num fun i => ?_
    have h1 : slice 0 (i.1 + 1) 1 (vec x) = arr 1 (i.1 + 1) fun _ j => x (j.castLE i.2) :=
      slice_arr _ (fun j => j.castLE i.2) (by simp) fun j => by simp
    rw [h1, sum_arr]
    unfold num
    congr 1; funext _ _
    simp only [univ_unique, sum_singleton]
    let f : ℕ → ℝ := fun k => if hk : k < D then x ⟨k, hk⟩ else 0
    have e1 : ∀ j : Fin (i.1 + 1), x (j.castLE i.2) = f j := fun j => by
      have : j.1 < D := by omega
      simp only [f, this, dif_pos]; rfl
    have e2 : ∀ j : Fin D, (if j ≤ i then x j else 0) = if j.1 ≤ i.1 then f j else 0 := fun j => by
      simp only [f, j.2, dif_pos, Fin.le_def]
    simp only [e1, e2]
    rw [Fin.sum_univ_eq_sum_range f (i.1 + 1), Fin.sum_univ_eq_sum_range (fun k => if k ≤ i.1 then f k else 0) D, ← sum_filter]
    refine sum_congr ?_ fun _ _ => rfl
    ext k; simp only [mem_range, mem_filter]; omega
  unfold ridge Bench.ridge; simp only [h]; np

theorem C88_elliptic (x : Sol (n + 2)) : elliptic (n + 2) (vec x) = num (Bench.elliptic x) := by
  have h : ((n + 2 : ℕ) : ℝ) - 1 = n + 1 := by push_cast; ring
  unfold elliptic Bench.elliptic; simp only [h]; np

/-- C88 is false: in one dimension `Elliptic` divides zero by zero; the value is NaN for every solution. -/
theorem C88_elliptic_false (x : Sol 1) : elliptic 1 (vec x) = .ok ⟨1, 1, fun _ _ => none⟩ := by
  unfold elliptic
  simp only [vec, num, add_def, sub_def, mul_def, div_def, power, ofNat_def, arange_zero]
  have h1 : lift2 (part (fun _ b => b ≠ 0) (· / ·)) (arr 1 1 fun _ j => ((j.1 : ℕ) : ℝ)) (arr 1 1 fun _ _ => ((1 : ℕ) : ℝ) - 1) =
      .ok ⟨1, 1, fun _ _ => none⟩ := by
    simp [lift2, arr, Nd.zip, bc, ix, part, Nd.get]; rfl
  rw [h1, right fun _ _ => powOk_ofNat _ _]
  simp [lift2, arr, Nd.zip, bc, ix, Nd.get, sum, Nd.total]; rfl

theorem every_arr (k : Fin 4) (u : Fin 1 → Fin (4 * n) → ℝ) : every k 4 (arr 1 (4 * n) u) = arr 1 n fun _ i => u 0 ⟨4 * i + k, by omega⟩ :=
  slice_arr u (fun i => ⟨4 * i + k, by omega⟩) (by simp [size_arr]; omega) fun j => by simp [add_comm]

theorem C88_powell (x : Sol (4 * n)) : powell (vec x) = num (Bench.powell x) := by
  have h0 (u : Fin 1 → Fin (4 * n) → ℝ) := every_arr 0 u
  have h1 (u : Fin 1 → Fin (4 * n) → ℝ) := every_arr 1 u
  have h2 (u : Fin 1 → Fin (4 * n) → ℝ) := every_arr 2 u
  have h3 (u : Fin 1 → Fin (4 * n) → ℝ) := every_arr 3 u
  simp only [Fin.isValue, Fin.val_zero, Fin.val_one, Fin.val_two] at h0 h1 h2 h3
  have h3' (u : Fin 1 → Fin (4 * n) → ℝ) : every 3 4 (arr 1 (4 * n) u) = _ := h3 u
  unfold powell Bench.powell; simp only [vec, h0, h1, h2, h3']; np

/-- An array or `ValueError`. -/
def Orderly (a : V) : Prop := a = .error .valueError ∨ ∃ b, a = .ok b

/-- C88 is false of `Powell` for nine or more dimensions, if their number is not a multiple of four: the slices have different lengths. -/
theorem C88_powell_false (hD : 8 < D) (h : D % 4 ≠ 0) (x : Sol D) : powell (vec x) = .error .valueError := by
  have hs : ∀ k, ∃ a, every k 4 (vec x) = .ok a ∧ a.r = 1 ∧ a.c = (D - k + 3) / 4 := fun k => ⟨_, rfl, rfl, by simp [vec, size_arr]⟩
  obtain ⟨a1, e1, r1, c1⟩ := hs 0
  obtain ⟨a2, e2, r2, c2⟩ := hs 1
  obtain ⟨a3, e3, r3, c3⟩ := hs 2
  obtain ⟨a4, e4, r4, c4⟩ := hs 3
  have h4 : (.ok a1 - .ok a4 : V) = .error .valueError := by
    show Nd.zip _ a1 a4 = _
    have : bc a1.c a4.c = none := by
      unfold bc
      rw [if_neg (by omega), if_neg (by omega), if_neg (by omega)]
    rw [Nd.zip, r1, r4, bc_self, this]
  unfold powell
  simp only [e1, e2, e3, e4, h4]
  have zip (op : ℝ → ℝ → Num) (a b : Nd) : Orderly (a.zip op b) := by
    unfold Nd.zip
    split
    · exact .inl rfl
    · split
      · exact .inl rfl
      · exact .inr ⟨_, rfl⟩
  have bin (op : ℝ → ℝ → Num) {a b : V} (ha : Orderly a) (hb : Orderly b) : Orderly (lift2 op a b) := by
    rcases ha with rfl | ⟨a, rfl⟩
    · exact .inl rfl
    · rcases hb with rfl | ⟨b, rfl⟩
      · exact .inl rfl
      · exact zip op a b
  have ok (a : Nd) : Orderly (.ok a) := .inr ⟨_, rfl⟩
  have nat (k : ℕ) : Orderly (OfNat.ofNat k : V) := ok _
  have fail (op : ℝ → ℝ → Num) {a : V} (ha : Orderly a) : lift2 op a (.error .valueError) = .error .valueError := by
    rcases ha with rfl | ⟨a, rfl⟩ <;> rfl
  have e5 : ((10 : V) * (.error .valueError : V) ** 4) = .error .valueError := rfl
  rw [e5]
  have e6 : ∀ a : V, Orderly a → sum (lift2 (part (fun _ _ => True) (· + ·)) a (.error .valueError)) = .error .valueError := fun a ha => by
    rw [fail _ ha]; rfl
  refine e6 _ (bin _ (bin _ (bin _ (bin _ (ok _) (bin _ (nat _) (ok _))) (nat _)) (bin _ (nat _) (bin _ (bin _ (ok _) (ok _)) (nat _))))
    (bin _ (bin _ (ok _) (bin _ (nat _) (ok _))) (nat _)))

/-- ... and for less than four dimensions: the value is 0 everywhere. -/
theorem C88_powell_small (hD : D < 4) (x : Sol D) : powell (vec x) = num 0 := by
  have empty {k : ℕ} (h : D ≤ k) (u : Fin 1 → Fin D → ℝ) : every k 4 (arr 1 D u) = arr 1 0 fun _ j => j.elim0 := by
    unfold every
    rw [slice_arr (n := 0) u (fun j => j.elim0) (by rw [size_arr]; omega) fun j => j.elim0]
    congr 1; funext _ j; exact j.elim0
  have single {k : ℕ} (h : k < D) (u : Fin 1 → Fin D → ℝ) : every k 4 (arr 1 D u) = arr 1 1 fun _ _ => u 0 ⟨k, h⟩ :=
    slice_arr (n := 1) u (fun _ => ⟨k, h⟩) (by rw [size_arr]; omega) fun j => by simp
  have case (k : ℕ) (u : Fin 1 → Fin D → ℝ) : (every k 4 (arr 1 D u) = arr 1 0 fun _ j => j.elim0) ∨ ∃ w, every k 4 (arr 1 D u) = arr 1 1 w := by
    by_cases h : k < D
    · exact .inr ⟨_, single h u⟩
    · exact .inl (empty (by omega) u)
  have h4 (u : Fin 1 → Fin D → ℝ) : every 3 4 (arr 1 D u) = _ := empty (by omega) u
  unfold powell
  simp only [vec, h4]
  rcases case 0 (fun _ => x) with h1 | ⟨w1, h1⟩ <;> rcases case 1 (fun _ => x) with h2 | ⟨w2, h2⟩ <;> rcases case 2 (fun _ => x) with h3 | ⟨w3, h3⟩ <;>
    (simp only [h1, h2, h3]; np)

/-! ## With trigonometric functions -/

/-- `Ackley._evaluate` (ackley.py:84-91) -/
noncomputable def ackley (D : ℕ) (a b c : ℝ) (x : V) : V :=
  let val1 := sum (x ** 2)
  let val2 := sum (fn cos (num c * x))
  let temp1 := -num b * sqrt (val1 / num D)
  let temp2 := val2 / num D;
  -num a * fn exp temp1 - fn exp temp2 + num a + fn exp 1
theorem C88_ackley (a b c : ℝ) (x : Sol (n + 1)) : ackley (n + 1) a b c (vec x) = num (Bench.ackley a b c x) := by
  unfold ackley Bench.ackley; np

/-- `Alpine1._evaluate` (alpine.py:72-73) -/
noncomputable def alpine1 (x : V) : V := sum (fn abs (fn sin x + 0.1 * x))
theorem C88_alpine1 (x : Sol D) : alpine1 (vec x) = num (Bench.alpine1 x) := by
  unfold alpine1 Bench.alpine1; np

/-- `Alpine2._evaluate` (alpine.py:138-139) -/
noncomputable def alpine2 (x : V) : V := prod (sqrt x * fn sin x)
theorem C88_alpine2 (x : Sol D) (hx : ∀ i, 0 ≤ x i) : alpine2 (vec x) = num (Bench.alpine2 x) := by
  unfold alpine2 Bench.alpine2
  rw [vec, sqrt_arr fun _ j => hx j]; np

/-- `Csendes._evaluate` (csendes.py:73-75) -/
noncomputable def csendes (x : V) : V :=
  let m := mask (fun t => t ≠ 0) x
  sum (power m 6 * (2 + fn sin (1 / m)))

theorem sum_get (g : ℝ → ℝ) (l : List ℝ) : ∑ j : Fin l.length, g (l.get j) = (l.map g).sum := by
  rw [← List.sum_ofFn]
  congr 1
  exact List.ext_getElem (by simp) fun i _ _ => by simp

theorem sum_taken (p : ℝ → Bool) (g : ℝ → ℝ) (l : List ℝ) : ((l.filter p).map g).sum = (l.map fun t => if p t then g t else 0).sum := by
  induction l with
  | nil => rfl
  | cons a l ih => by_cases h : p a <;> simp [h, ih]

theorem C88_csendes (x : Sol D) : csendes (vec x) = num (Bench.csendes x) := by
  unfold csendes Bench.csendes
  rw [mask_arr]
  generalize hl : (List.ofFn x).filter _ = l
  have h : ∀ j, l.get j ≠ 0 := fun j => by
    have := List.get_mem l j
    generalize l.get j = t at this
    rw [← hl] at this
    simpa using (List.mem_filter.1 this).2
  have e := sum_get (fun t => t ^ 6 * (2 + sin (1 / t))) l
  have e2 : (l.map fun t => t ^ 6 * (2 + sin (1 / t))).sum = ∑ i, if x i ≠ 0 then x i ^ 6 * (2 + sin (1 / x i)) else 0 := by
    rw [← hl, sum_taken, List.map_ofFn, List.sum_ofFn]
    exact sum_congr rfl fun i _ => by simp
  np
  congr 1; funext _ _
  exact e.trans e2

/-- `Griewank._evaluate` (griewank.py:74-78) -/
noncomputable def griewank (D : ℕ) (x : V) : V :=
  let val1 := sum (x * x / 4000)
  let i := arange 1 (D + 1)
  let val2 := prod (fn cos (x / sqrt i))
  val1 - val2 + 1
theorem C88_griewank (x : Sol D) : griewank D (vec x) = num (Bench.griewank x) := by
  unfold griewank Bench.griewank; np

/-- `ExpandedGriewankPlusRosenbrock._evaluate` (griewank.py:140-143) -/
noncomputable def expandedGriewank (D : ℕ) (x : V) : V :=
  let x1 := 100 * («from» 1 x - init x ** 2) ** 2 + (1 - init x) ** 2
  let x2 := x1 * x1 / 4000 - fn cos (x1 / sqrt (arange 1 D))
  sum x2
theorem C88_expandedGriewank (x : Sol (n + 1)) : expandedGriewank (n + 1) (vec x) = num (Bench.expandedGriewank x) := by
  unfold expandedGriewank Bench.expandedGriewank; np

/-- `Levy._evaluate` (levy.py:71-77) -/
noncomputable def levy (x : V) : V :=
  let w := 1 + (x - 1) / 4
  let term1 := fn sin (num π * item 0 w) ** 2
  let wi := init w
  let term2 := sum ((wi - 1) ** 2 * (1 + 10 * fn sin (num π * wi + 1)))
  let term3 := (lastItem w - 1) ** 2 * (1 + fn sin (2 * num π * lastItem w) ** 2)
  term1 + term2 + term3
theorem C88_levy (x : Sol (n + 1)) : levy (vec x) = num (Bench.levy x) := by
  unfold levy Bench.levy; np

/-- `Michalewicz._evaluate` (michalewicz.py:75-76) -/
noncomputable def michalewicz (D m : ℕ) (x : V) : V := -sum (fn sin x * fn sin ((arange 1 (D + 1) * x ** 2) / num π) ** (2 * num m))
theorem C88_michalewicz (m : ℕ) (x : Sol D) : michalewicz D m (vec x) = num (Bench.michalewicz m x) := by
  have h : (2 * num m : V) = num ((2 * m : ℕ) : ℝ) := by np
  unfold michalewicz Bench.michalewicz; rw [h]; np

/-- `Pinter._evaluate` (pinter.py:87-99) -/
noncomputable def pinter (D : ℕ) (x : V) : V :=
  let sub := roll 1 x
  let add := roll (-1) x
  let indices := arange 1 (D + 1)
  let a := sub * fn sin x + fn sin add
  let b := sub * sub - 2 * x + 3 * add - fn cos x + 1
  let val1 := sum (indices * x * x)
  let val2 := sum (20 * indices * power (fn sin a) 2)
  let val3 := sum (indices * log10 (1 + indices * power b 2))
  val1 + val2 + val3
theorem C88_pinter (x : Sol (n + 1)) : pinter (n + 1) (vec x) = num (Bench.pinter x) := by
  unfold pinter Bench.pinter; np

/-- `Rastrigin._evaluate` (rastrigin.py:71-72) -/
noncomputable def rastrigin (D : ℕ) (x : V) : V := 10 * num D + sum (x * x - 10 * fn cos (2 * num π * x))
theorem C88_rastrigin (x : Sol D) : rastrigin D (vec x) = num (Bench.rastrigin x) := by
  unfold rastrigin Bench.rastrigin; np

/-- `Salomon._evaluate` (salomon.py:77-79) -/
noncomputable def salomon (x : V) : V :=
  let val := sqrt (sum (x ** 2))
  1 - fn cos (2 * num π * val) + 0.1 * val
theorem C88_salomon (x : Sol D) : salomon (vec x) = num (Bench.salomon x) := by
  unfold salomon Bench.salomon; np

/-- `SchafferN2._evaluate` (schaffer.py:69-70) -/
noncomputable def schafferN2 (x : V) : V :=
  0.5 + (fn sin (item 0 x ** 2 - item 1 x ** 2) ** 2 - 0.5) / (1 + 0.001 * (item 0 x ** 2 + item 1 x ** 2)) ** 2
theorem C88_schafferN2 (x : Sol 2) : schafferN2 (vec x) = num (Bench.schafferN2 x) := by
  unfold schafferN2 Bench.schafferN2; np

/-- `SchafferN4._evaluate` (schaffer.py:131-132) -/
noncomputable def schafferN4 (x : V) : V :=
  0.5 + (fn cos (fn sin (item 0 x ** 2 - item 1 x ** 2)) ** 2 - 0.5) / (1 + 0.001 * (item 0 x ** 2 + item 1 x ** 2)) ** 2
theorem C88_schafferN4 (x : Sol 2) : schafferN4 (vec x) = num (Bench.schafferN4 x) := by
  unfold schafferN4 Bench.schafferN4; np

/-- `ExpandedSchaffer._evaluate` (schaffer.py:198-202) -/
noncomputable def expandedSchaffer (x : V) : V :=
  let xNext := roll (-1) x
  let tmp := x ** 2 + xNext ** 2
  let val := 0.5 + (fn sin (sqrt tmp) ** 2 - 0.5) / (1 + 0.001 * tmp) ** 2
  sum val
theorem C88_expandedSchaffer (x : Sol (n + 1)) : expandedSchaffer (vec x) = num (Bench.expandedSchaffer x) := by
  unfold expandedSchaffer Bench.expandedSchaffer; np

/-- `Weierstrass._evaluate` (weierstrass.py:76-81) -/
noncomputable def weierstrass (D : ℕ) (a : ℝ) (b kMax : ℕ) (x : V) : V :=
  let k := T (arange 0 (kMax + 1))
  let t1 := num a ** k * fn cos (2 * num π * num b ** k * (x + 0.5))
  let t2 := num D * sum (num a ** T k * fn cos (num π * num b ** T k))
  sum (sum0 t1) - t2
theorem C88_weierstrass (a : ℝ) (b kMax : ℕ) (x : Sol D) : weierstrass D a b kMax (vec x) = num (Bench.weierstrass a b kMax x) := by
  unfold weierstrass Bench.weierstrass; np
  simp only [Finset.sum_range]

/-- `Whitley._evaluate` (whitley.py:81-85) -/
noncomputable def whitley (D : ℕ) (x : V) : V :=
  let xi := T (tile D x)
  let xj := tile D x
  let tmp := 100 * (xi ** 2 - xj) ** 2 + (1 - xj) ** 2
  sum (tmp ** 2 / 4000 - fn cos tmp + 1)
theorem C88_whitley (x : Sol D) : whitley D (vec x) = num (Bench.whitley x) := by
  unfold whitley Bench.whitley; np

/-- `CosineMixture._evaluate` (cosine_mixture.py:71-72) -/
noncomputable def cosineMixture (x : V) : V := -0.1 * sum (fn cos (5 * num π * x)) - sum (x ** 2)
theorem C88_cosineMixture (x : Sol D) : cosineMixture (vec x) = num (Bench.cosineMixture x) := by
  unfold cosineMixture Bench.cosineMixture; np

/-- `Schwefel._evaluate` (schwefel.py:70-71) -/
noncomputable def schwefel (D : ℕ) (x : V) : V := 418.982887272433799807913601398 * num D - sum (x * fn sin (sqrt (fn abs x)))
theorem C88_schwefel (x : Sol D) : schwefel D (vec x) = num (Bench.schwefel x) := by
  unfold schwefel Bench.schwefel wave; np

/-- `ModifiedSchwefel._evaluate` (schwefel.py:263-271) -/
noncomputable def modifiedSchwefel (D : ℕ) (x : V) : V :=
  let xx := x + 420.9687462275036
  let xxMod := fmodV fmod xx 500
  let choice1 := (500 - xxMod) * fn sin (sqrt (fn abs (500 - xxMod))) - (xx - 500) ** 2 / (10000 * num D)
  let choice2 := (xxMod - 500) * fn sin (sqrt (fn abs (xxMod - 500))) + (xx - 500) ** 2 / (10000 * num D)
  let default := xx * fn sin (sqrt (fn abs xx))
  let val := sum (select 500 (-500) x choice1 choice2 default)
  418.9829 * num D - val
theorem C88_modifiedSchwefel (x : Sol (n + 1)) : modifiedSchwefel (n + 1) (vec x) = num (Bench.modifiedSchwefel x) := by
  unfold modifiedSchwefel Bench.modifiedSchwefel wave fmodV; np

/-! ## All of them -/

/-- The classes of `niapy.problems` (problems/__init__.py:3-39). -/
inductive Prob where
  | ackley | alpine1 | alpine2 | bentCigar | chungReynolds | cosineMixture | csendes | discus | dixonPrice | elliptic | griewank | expandedGriewank
  | happyCat | hgbat | katsuura | levy | michalewicz | perm | pinter | powell | qing | quintic | rastrigin | ridge
  | rosenbrock | salomon | schafferN2 | schafferN4 | expandedSchaffer | schumerSteiglitz | schwefel | schwefel221 | schwefel222 | modifiedSchwefel | sphere | sphere2
  | sphere3 | step | step2 | step3 | stepint | styblinskiTang | sumSquares | trid | weierstrass | whitley | zakharov

/-- `_evaluate`, with the default values of the other parameters (`a`, `b`, `c` ackley.py:52, `alpha` happy_cat.py:50, `m` michalewicz.py:49,
`beta` perm.py:48, `a`, `b`, `k_max` weierstrass.py:46). -/
noncomputable def Prob.eval (round : ℝ → ℝ) (D : ℕ) (x : V) : Prob → V
  | .ackley => Code.ackley D 20 0.2 (2 * π) x
  | .alpine1 => Code.alpine1 x
  | .alpine2 => Code.alpine2 x
  | .bentCigar => Code.bentCigar x
  | .chungReynolds => Code.chungReynolds x
  | .cosineMixture => Code.cosineMixture x
  | .csendes => Code.csendes x
  | .discus => Code.discus x
  | .dixonPrice => Code.dixonPrice D x
  | .elliptic => Code.elliptic D x
  | .griewank => Code.griewank D x
  | .expandedGriewank => Code.expandedGriewank D x
  | .happyCat => Code.happyCat D 0.25 x
  | .hgbat => Code.hgbat D x
  | .katsuura => Code.katsuura D round x
  | .levy => Code.levy x
  | .michalewicz => Code.michalewicz D 10 x
  | .perm => Code.perm D 0.5 x
  | .pinter => Code.pinter D x
  | .powell => Code.powell x
  | .qing => Code.qing D x
  | .quintic => Code.quintic x
  | .rastrigin => Code.rastrigin D x
  | .ridge => Code.ridge D x
  | .rosenbrock => Code.rosenbrock x
  | .salomon => Code.salomon x
  | .schafferN2 => Code.schafferN2 x
  | .schafferN4 => Code.schafferN4 x
  | .expandedSchaffer => Code.expandedSchaffer x
  | .schumerSteiglitz => Code.schumerSteiglitz x
  | .schwefel => Code.schwefel D x
  | .schwefel221 => Code.schwefel221 x
  | .schwefel222 => Code.schwefel222 x
  | .modifiedSchwefel => Code.modifiedSchwefel D x
  | .sphere => Code.sphere x
  | .sphere2 => Code.sphere2 D x
  | .sphere3 => Code.sphere3 D x
  | .step => Code.step x
  | .step2 => Code.step2 x
  | .step3 => Code.step3 x
  | .stepint => Code.stepint x
  | .styblinskiTang => Code.styblinskiTang x
  | .sumSquares => Code.sumSquares D x
  | .trid => Code.trid x
  | .weierstrass => Code.weierstrass D 0.5 3 20 x
  | .whitley => Code.whitley D x
  | .zakharov => Code.zakharov D x

/-- The default `lower`, in `__init__` of the class. -/
noncomputable def Prob.lower (D : ℕ) : Prob → ℝ
  | .ackley => -32.768
  | .alpine1 => -10
  | .alpine2 => 0
  | .bentCigar => -100
  | .chungReynolds => -100
  | .cosineMixture => -1
  | .csendes => -1
  | .discus => -100
  | .dixonPrice => -10
  | .elliptic => -100
  | .griewank => -100
  | .expandedGriewank => -100
  | .happyCat => -100
  | .hgbat => -100
  | .katsuura => -100
  | .levy => -10
  | .michalewicz => 0
  | .perm => -D
  | .pinter => -10
  | .powell => -4
  | .qing => -500
  | .quintic => -10
  | .rastrigin => -5.12
  | .ridge => -64
  | .rosenbrock => -30
  | .salomon => -100
  | .schafferN2 => -100
  | .schafferN4 => -100
  | .expandedSchaffer => -100
  | .schumerSteiglitz => -100
  | .schwefel => -500
  | .schwefel221 => -100
  | .schwefel222 => -100
  | .modifiedSchwefel => -100
  | .sphere => -5.12
  | .sphere2 => -1
  | .sphere3 => -65.536
  | .step => -100
  | .step2 => -100
  | .step3 => -100
  | .stepint => -5.12
  | .styblinskiTang => -5
  | .sumSquares => -10
  | .trid => -(D : ℝ) ^ 2
  | .weierstrass => -100
  | .whitley => -10.24
  | .zakharov => -5

/-- The default `upper`. -/
noncomputable def Prob.upper (D : ℕ) : Prob → ℝ
  | .ackley => 32.768
  | .alpine1 => 10
  | .alpine2 => 10
  | .bentCigar => 100
  | .chungReynolds => 100
  | .cosineMixture => 1
  | .csendes => 1
  | .discus => 100
  | .dixonPrice => 10
  | .elliptic => 100
  | .griewank => 100
  | .expandedGriewank => 100
  | .happyCat => 100
  | .hgbat => 100
  | .katsuura => 100
  | .levy => 10
  | .michalewicz => π
  | .perm => D
  | .pinter => 10
  | .powell => 5
  | .qing => 500
  | .quintic => 10
  | .rastrigin => 5.12
  | .ridge => 64
  | .rosenbrock => 30
  | .salomon => 100
  | .schafferN2 => 100
  | .schafferN4 => 100
  | .expandedSchaffer => 100
  | .schumerSteiglitz => 100
  | .schwefel => 500
  | .schwefel221 => 100
  | .schwefel222 => 100
  | .modifiedSchwefel => 100
  | .sphere => 5.12
  | .sphere2 => 1
  | .sphere3 => 65.536
  | .step => 100
  | .step2 => 100
  | .step3 => 100
  | .stepint => 5.12
  | .styblinskiTang => 5
  | .sumSquares => 10
  | .trid => (D : ℝ) ^ 2
  | .weierstrass => 100
  | .whitley => 10.24
  | .zakharov => 10

/-- The dimensions for which the value is the sum that is meant: `Elliptic` divides by `dimension - 1`, `Powell` pairs four slices, `SchafferN2` and
`SchafferN4` have no argument `dimension` (schaffer.py:45-55, 107-117). -/
def Prob.Takes (D : ℕ) : Prob → Prop
  | .elliptic => 2 ≤ D
  | .powell => 4 ∣ D
  | .schafferN2 | .schafferN4 => D = 2
  | _ => True

/-- C88: a benchmark gives a number for every point of its default box: there is no exception, no division by zero and no square root or power outside
its domain. Dimension 1 of `Elliptic` and dimensions of `Powell` that four does not divide are excepted (`C88_elliptic_false`, `C88_powell_false`). -/
theorem C88_partial (round : ℝ → ℝ) (p : Prob) {D : ℕ} (hD : 1 ≤ D) (hp : p.Takes D) (x : Sol D) (hx : ∀ i, p.lower D ≤ x i ∧ x i ≤ p.upper D) :
    ∃ q, p.eval round D (vec x) = num q := by
  cases p with
  | ackley =>
    obtain ⟨n, rfl⟩ := Nat.exists_eq_add_of_le' hD
    exact ⟨_, C88_ackley _ _ _ x⟩
  | alpine1 => exact ⟨_, C88_alpine1 x⟩
  | alpine2 => exact ⟨_, C88_alpine2 x fun i => (hx i).1⟩
  | bentCigar =>
    obtain ⟨n, rfl⟩ := Nat.exists_eq_add_of_le' hD
    exact ⟨_, C88_bentCigar x⟩
  | chungReynolds => exact ⟨_, C88_chungReynolds x⟩
  | cosineMixture => exact ⟨_, C88_cosineMixture x⟩
  | csendes => exact ⟨_, C88_csendes x⟩
  | discus =>
    obtain ⟨n, rfl⟩ := Nat.exists_eq_add_of_le' hD
    exact ⟨_, C88_discus x⟩
  | dixonPrice =>
    rcases Nat.lt_or_ge 1 D with h | h
    · obtain ⟨n, rfl⟩ := Nat.exists_eq_add_of_le' h
      exact ⟨_, C88_dixonPrice x⟩
    · obtain rfl : D = 1 := by omega
      exact ⟨_, C88_dixonPrice_one x⟩
  | elliptic =>
    obtain ⟨n, rfl⟩ := Nat.exists_eq_add_of_le' hp
    exact ⟨_, C88_elliptic x⟩
  | griewank => exact ⟨_, C88_griewank x⟩
  | expandedGriewank =>
    obtain ⟨n, rfl⟩ := Nat.exists_eq_add_of_le' hD
    exact ⟨_, C88_expandedGriewank x⟩
  | happyCat =>
    obtain ⟨n, rfl⟩ := Nat.exists_eq_add_of_le' hD
    exact ⟨_, C88_happyCat (by norm_num) x⟩
  | hgbat =>
    obtain ⟨n, rfl⟩ := Nat.exists_eq_add_of_le' hD
    exact ⟨_, C88_hgbat x⟩
  | katsuura => exact ⟨_, C88_katsuura _ x⟩
  | levy =>
    obtain ⟨n, rfl⟩ := Nat.exists_eq_add_of_le' hD
    exact ⟨_, C88_levy x⟩
  | michalewicz => exact ⟨_, C88_michalewicz _ x⟩
  | perm => exact ⟨_, C88_perm _ x⟩
  | pinter =>
    obtain ⟨n, rfl⟩ := Nat.exists_eq_add_of_le' hD
    exact ⟨_, C88_pinter x⟩
  | powell =>
    obtain ⟨n, rfl⟩ := hp
    exact ⟨_, C88_powell x⟩
  | qing => exact ⟨_, C88_qing x⟩
  | quintic => exact ⟨_, C88_quintic x⟩
  | rastrigin => exact ⟨_, C88_rastrigin x⟩
  | ridge => exact ⟨_, C88_ridge x⟩
  | rosenbrock =>
    obtain ⟨n, rfl⟩ := Nat.exists_eq_add_of_le' hD
    exact ⟨_, C88_rosenbrock x⟩
  | salomon => exact ⟨_, C88_salomon x⟩
  | schafferN2 =>
    obtain rfl : D = 2 := hp
    exact ⟨_, C88_schafferN2 x⟩
  | schafferN4 =>
    obtain rfl : D = 2 := hp
    exact ⟨_, C88_schafferN4 x⟩
  | expandedSchaffer =>
    obtain ⟨n, rfl⟩ := Nat.exists_eq_add_of_le' hD
    exact ⟨_, C88_expandedSchaffer x⟩
  | schumerSteiglitz => exact ⟨_, C88_schumerSteiglitz x⟩
  | schwefel => exact ⟨_, C88_schwefel x⟩
  | schwefel221 =>
    obtain ⟨n, rfl⟩ := Nat.exists_eq_add_of_le' hD
    exact ⟨_, C88_schwefel221 x⟩
  | schwefel222 => exact ⟨_, C88_schwefel222 x⟩
  | modifiedSchwefel =>
    obtain ⟨n, rfl⟩ := Nat.exists_eq_add_of_le' hD
    exact ⟨_, C88_modifiedSchwefel x⟩
  | sphere => exact ⟨_, C88_sphere x⟩
  | sphere2 => exact ⟨_, C88_sphere2 x⟩
  | sphere3 => exact ⟨_, C88_sphere3 x⟩
  | step => exact ⟨_, C88_step x⟩
  | step2 => exact ⟨_, C88_step2 x⟩
  | step3 => exact ⟨_, C88_step3 x⟩
  | stepint => exact ⟨_, C88_stepint x⟩
  | styblinskiTang => exact ⟨_, C88_styblinskiTang x⟩
  | sumSquares => exact ⟨_, C88_sumSquares x⟩
  | trid =>
    obtain ⟨n, rfl⟩ := Nat.exists_eq_add_of_le' hD
    exact ⟨_, C88_trid x⟩
  | weierstrass => exact ⟨_, C88_weierstrass _ _ _ x⟩
  | whitley => exact ⟨_, C88_whitley x⟩
  | zakharov => exact ⟨_, C88_zakharov x⟩

/-- The hypotheses hold for `Powell` and `Alpine2` in dimension 4. -/
example : (∃ q, Prob.eval id 4 (vec (n := 4) fun _ => 1) .powell = num q) ∧ ∃ q, Prob.eval id 4 (vec (n := 4) fun _ => 3) .alpine2 = num q :=
  ⟨C88_partial id .powell (by norm_num) ⟨1, rfl⟩ _ fun _ => by norm_num [Prob.lower, Prob.upper],
    C88_partial id .alpine2 (by norm_num) trivial _ fun _ => by norm_num [Prob.lower, Prob.upper]⟩

end NiaPy.Bench.Code
