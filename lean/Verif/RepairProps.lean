import Verif.Repair
import Verif.Spec
import Mathlib.Data.Fin.VecNotation
import Mathlib.Data.Fintype.Pi
import Mathlib.Tactic.FinCases
import Mathlib.Tactic.NormNum
import Mathlib.Tactic.Ring

/-!
# Properties of the repair functions, `is_feasible` and the array helpers (C09-C15)
-/

namespace NiaPy
namespace Repair
variable {D : ℕ}

/-! ## Helper lemmas -/

theorem clip_notOut {v lo hi : Fl} (h : lo ≤ hi) : ¬ clip v lo hi < lo ∧ ¬ hi < clip v lo hi := by
  unfold clip Fl.npMin Fl.npMax
  cases v <;> cases lo <;> cases hi <;> simp_all <;> grind [Fl.fin_lt_fin, Fl.not_nan_lt, Fl.not_lt_nan]

theorem clip_id {v lo hi : Fl} (h : lo ≤ hi) (h1 : ¬ v < lo) (h2 : ¬ hi < v) : clip v lo hi = v := by
  have hl := Fl.ne_nan_of_le_left h
  have hh := Fl.ne_nan_of_le_right h
  unfold clip Fl.npMin Fl.npMax
  by_cases hv : v = .nan
  · simp [hv]
  · simp [hv, hl, hh, h1, h2]

theorem clip_nan {lo hi : Fl} : clip .nan lo hi = .nan := by simp [clip, Fl.npMin, Fl.npMax]

theorem clip_ne_nan {v lo hi : Fl} (h : lo ≤ hi) (hv : v ≠ .nan) : clip v lo hi ≠ .nan := by
  have hl := Fl.ne_nan_of_le_left h
  have hh := Fl.ne_nan_of_le_right h
  unfold clip Fl.npMin Fl.npMax
  by_cases h1 : v < lo
  · simp only [hv, hl, or_self, if_false, h1, if_true, hh]
    split <;> assumption
  · simp only [hv, hl, or_self, if_false, h1, hh]
    split <;> assumption

/-- One coordinate of the two-step repairs `limit_inverse`, `wang` and `rand`. -/
def twoStep (v lo hi a : Fl) (b : Fl → Fl) : Fl :=
  let v := if v < lo then a else v
  if hi < v then b v else v

theorem twoStep_notOut {v lo hi a : Fl} {b : Fl → Fl} (h : lo ≤ hi) (ha : v < lo → ¬ a < lo ∧ ¬ hi < a)
    (hb : hi < v → ¬ b v < lo ∧ ¬ hi < b v) : ¬ twoStep v lo hi a b < lo ∧ ¬ hi < twoStep v lo hi a b := by
  unfold twoStep
  by_cases h1 : v < lo
  · have h2 := ha h1
    simp only [h1, if_true, h2.2, if_false]; exact ⟨h2.1, not_false⟩
  · simp only [h1, if_false]
    by_cases h2 : hi < v
    · simp only [h2, if_true]; exact hb h2
    · simp only [h2, if_false]; exact ⟨h1, not_false⟩

theorem twoStep_id {v lo hi a : Fl} {b : Fl → Fl} (h1 : ¬ v < lo) (h2 : ¬ hi < v) : twoStep v lo hi a b = v := by
  simp [twoStep, h1, h2]

theorem twoStep_ne_nan {v lo hi a b : Fl} (hv : v ≠ .nan) (ha : a ≠ .nan) (hb : b ≠ .nan) :
    twoStep v lo hi a (fun _ => b) ≠ .nan := by
  unfold twoStep
  by_cases h1 : v < lo
  · simp only [h1, if_true]; split <;> assumption
  · simp only [h1, if_false]; split <;> assumption

theorem limitInverse_eq (B : Box D) (x : Vec D) (i : Fin D) :
    limitInverse B x i = twoStep (x i) (B.lo i) (B.hi i) (B.hi i) (fun _ => B.lo i) := by
  simp [limitInverse, setWhere, twoStep]

theorem wang_eq [Arith] (B : Box D) (x : Vec D) (i : Fin D) :
    wang B x i = twoStep (x i) (B.lo i) (B.hi i) (Fl.npMin (B.hi i) (2 * B.lo i - x i))
      (fun v => Fl.npMax (B.lo i) (2 * B.hi i - v)) := by
  simp [wang, setWhere, twoStep]

theorem rand_eq (B : Box D) (rng : Rng) (k : ℕ) (x : Vec D) (i : Fin D) :
    rand B rng k x i = twoStep (x i) (B.lo i) (B.hi i) (rng.unif k (i + 1) (B.lo i) (B.hi i))
      (fun _ => rng.unif k (i + 1) (B.lo i) (B.hi i)) := by
  simp [rand, setWhere, twoStep]

theorem inBox_notOut {v lo hi : Fl} (h : lo ≤ v ∧ v ≤ hi) : ¬ v < lo ∧ ¬ hi < v :=
  ⟨Fl.not_lt_of_le h.1, Fl.not_lt_of_le h.2⟩

/-- What `wang` needs of the arithmetic: reflecting a point below `lo` at `lo` does not give a point below `lo`, and
the same above `hi`. It holds in exact arithmetic and for every monotone rounding (below). -/
structure MirrorLaw [Arith] (lo hi : Fl) : Prop where
  below : ∀ v, v < lo → ¬ (2 * lo - v) < lo
  above : ∀ v, hi < v → ¬ hi < (2 * hi - v)

theorem mirrorLaw_exact (fn : Fn → Fl → Fl) (lo hi : Fl) : @MirrorLaw (exactArith fn) lo hi := by
  letI := exactArith fn
  constructor
  · intro v hv hlt
    change Fl.addX (Fl.mulX (.fin 2) lo) (-v) < lo at hlt
    cases v <;> cases lo <;> simp_all [Fl.mulX, Fl.addX, Fl.infOf]
    linarith
  · intro v hv hlt
    change hi < Fl.addX (Fl.mulX (.fin 2) hi) (-v) at hlt
    have h2 : Fl.mulX (.fin 2) .ninf = .ninf := by decide
    have h3 : Fl.mulX (.fin 2) .pinf = .pinf := by decide
    cases hi with
    | ninf => rw [h2] at hlt; cases v <;> simp_all [Fl.addX]
    | pinf => simp at hv
    | nan => simp at hv
    | fin q =>
      cases v <;> simp_all [Fl.mulX, Fl.addX]
      linarith

/-- Arithmetic with rounding: the exact result, if finite, is rounded by `rnd`. -/
@[reducible] def roundArith (rnd : ℚ → Fl) (fn : Fn → Fl → Fl) : Arith :=
  let r : Fl → Fl := fun v => match v with
    | .fin q => rnd q
    | v => v
  { add := fun a b => r (Fl.addX a b)
    sub := fun a b => r (Fl.addX a (-b))
    mul := fun a b => r (Fl.mulX a b)
    div := fun a b => r (Fl.divX a b)
    mod := fun a b => r (Fl.modX a b)
    pow := fun a b => r (Fl.powX a b)
    fn := fn }

/-- Monotone rounding that keeps a finite bound and its double: the mirror law holds. (The double of a double is a
double or overflows; the bounds of a task are finite.) -/
theorem mirrorLaw_round (rnd : ℚ → Fl) (fn : Fn → Fl → Fl) (hmono : ∀ a b, a ≤ b → rnd a ≤ rnd b) (lo hi : ℚ)
    (hlo : rnd lo = .fin lo) (hlo2 : rnd (2 * lo) = .fin (2 * lo)) (hhi : rnd hi = .fin hi)
    (hhi2 : rnd (2 * hi) = .fin (2 * hi)) : @MirrorLaw (roundArith rnd fn) (.fin lo) (.fin hi) := by
  letI := roundArith rnd fn
  have h2 : ∀ q : ℚ, rnd (2 * q) = .fin (2 * q) → (2 * Fl.fin q : Fl) = .fin (2 * q) := by
    intro q hq
    change (match Fl.mulX (.fin 2) (.fin q) with
      | .fin q => rnd q
      | v => v) = _
    simpa [Fl.mulX] using hq
  constructor
  · intro v hv
    rw [h2 lo hlo2]
    cases v with
    | fin v =>
      change ¬ rnd (2 * lo + -v) < .fin lo
      simp at hv
      rw [← hlo]
      exact Fl.not_lt_of_le (hmono _ _ (by linarith))
    | ninf => change ¬ Fl.pinf < _; simp
    | nan => simp at hv
    | pinf => simp at hv
  · intro v hv
    rw [h2 hi hhi2]
    cases v with
    | fin v =>
      change ¬ Fl.fin hi < rnd (2 * hi + -v)
      simp at hv
      rw [← hhi]
      exact Fl.not_lt_of_le (hmono _ _ (by linarith))
    | pinf => change ¬ _ < Fl.ninf; simp
    | nan => simp at hv
    | ninf => simp at hv

theorem npMin_cases (a b : Fl) : Fl.npMin a b = .nan ∨ Fl.npMin a b = a ∧ ¬ b < a ∨ Fl.npMin a b = b ∧ b < a := by
  unfold Fl.npMin
  split
  · exact Or.inl rfl
  · split
    · exact Or.inr (Or.inr ⟨rfl, by assumption⟩)
    · exact Or.inr (Or.inl ⟨rfl, by assumption⟩)

theorem npMax_cases (a b : Fl) : Fl.npMax a b = .nan ∨ Fl.npMax a b = a ∧ ¬ a < b ∨ Fl.npMax a b = b ∧ a < b := by
  unfold Fl.npMax
  split
  · exact Or.inl rfl
  · split
    · exact Or.inr (Or.inr ⟨rfl, by assumption⟩)
    · exact Or.inr (Or.inl ⟨rfl, by assumption⟩)

/-- One coordinate of `reflect` in exact arithmetic. -/
def reflX (v lo hi : ℚ) : ℚ := lo + (v - (hi - lo) * ⌊v / (hi - lo)⌋)

theorem reflX_mem (v lo hi : ℚ) (h : lo < hi) : lo ≤ reflX v lo hi ∧ reflX v lo hi < hi := by
  have hw : 0 < hi - lo := by linarith
  have h1 := Int.floor_le (v / (hi - lo))
  have h2 := Int.lt_floor_add_one (v / (hi - lo))
  rw [le_div_iff₀ hw] at h1
  rw [div_lt_iff₀ hw] at h2
  unfold reflX
  constructor <;> nlinarith

theorem reflect_fin (fn : Fn → Fl → Fl) (B : Box D) (x : Vec D) (i : Fin D) (lo hi v : ℚ) (h : lo < hi)
    (hlo : B.lo i = .fin lo) (hhi : B.hi i = .fin hi) (hv : x i = .fin v) :
    @reflect D (exactArith fn) B x i = .fin (if hi < v ∨ v < lo then reflX v lo hi else v) := by
  have hne : hi + -lo ≠ 0 := by intro h0; linarith
  have key : ∀ q : ℚ, (letI := exactArith fn; (Fl.fin lo + Fl.fin q % (Fl.fin hi - Fl.fin lo) : Fl)) =
      .fin (reflX q lo hi) := by
    intro q
    change Fl.addX (.fin lo) (Fl.modX (.fin q) (Fl.addX (.fin hi) (-(Fl.fin lo)))) = _
    simp [Fl.modX, Fl.addX, hne, reflX, sub_eq_add_neg]
  simp only [reflect, setWhere, hlo, hhi, hv, key]
  by_cases h1 : hi < v
  · have := (reflX_mem v lo hi h).1
    have h2 : ¬ reflX v lo hi < lo := not_lt.2 this
    simp [h1, h2]
  · by_cases h2 : v < lo
    · simpa [h1, h2] using key v
    · simp [h1, h2]

/-! ## C09: the result is in bounds -/

/-- **C09, `limit`.** -/
theorem C09_limit (B : Box D) (x : Vec D) : B.NotOut (limit B x) ∧ ((∀ i, x i ≠ .nan) → B.Mem (limit B x)) := by
  have h : B.NotOut (limit B x) := fun i => clip_notOut (B.le i)
  exact ⟨h, fun hn => h.mem fun i => clip_ne_nan (B.le i) (hn i)⟩

/-- **C09, `limit_inverse`.** -/
theorem C09_limit_inverse (B : Box D) (x : Vec D) :
    B.NotOut (limitInverse B x) ∧ ((∀ i, x i ≠ .nan) → B.Mem (limitInverse B x)) := by
  have h : B.NotOut (limitInverse B x) := fun i => by
    rw [limitInverse_eq]
    have hi : B.hi i ≠ .nan := Fl.ne_nan_of_le_right (B.le i)
    have lo : B.lo i ≠ .nan := Fl.ne_nan_of_le_left (B.le i)
    exact twoStep_notOut (B.le i) (fun _ => inBox_notOut ⟨B.le i, Fl.le_refl hi⟩)
      (fun _ => inBox_notOut ⟨Fl.le_refl lo, B.le i⟩)
  refine ⟨h, fun hn => h.mem fun i => ?_⟩
  rw [limitInverse_eq]
  have hi : B.hi i ≠ .nan := Fl.ne_nan_of_le_right (B.le i)
  have lo : B.lo i ≠ .nan := Fl.ne_nan_of_le_left (B.le i)
  have := hn i
  exact twoStep_ne_nan this (by assumption) (by assumption)

/-- **C09, `rand`**, for every generator. -/
theorem C09_rand (B : Box D) (rng : Rng) (k : ℕ) (x : Vec D) :
    B.NotOut (rand B rng k x) ∧ ((∀ i, x i ≠ .nan) → B.Mem (rand B rng k x)) := by
  have hu := fun i : Fin D => rng.unif_mem k (i + 1) (B.lo i) (B.hi i) (B.le i)
  have h : B.NotOut (rand B rng k x) := fun i => by
    rw [rand_eq]
    exact twoStep_notOut (B.le i) (fun _ => inBox_notOut (hu i)) (fun _ => inBox_notOut (hu i))
  refine ⟨h, fun hn => h.mem fun i => ?_⟩
  rw [rand_eq]
  have h1 := Fl.ne_nan_of_le_right (hu i).1
  have := hn i
  exact twoStep_ne_nan this (by assumption) (by assumption)

/-- **C09, `wang`**, in every arithmetic that satisfies the mirror law at the bounds (exact arithmetic and monotone
rounding do). -/
theorem C09_wang [Arith] (B : Box D) (hm : ∀ i, MirrorLaw (B.lo i) (B.hi i)) (x : Vec D) : B.NotOut (wang B x) := by
  intro i
  rw [wang_eq]
  refine twoStep_notOut (B.le i) (fun h => ?_) (fun h => ?_)
  · rcases npMin_cases (B.hi i) (2 * B.lo i - x i) with e | ⟨e, -⟩ | ⟨e, hlt⟩
    · rw [e]; simp
    · rw [e]; exact inBox_notOut ⟨B.le i, Fl.le_refl (Fl.ne_nan_of_le_right (B.le i))⟩
    · rw [e]; exact ⟨(hm i).below _ h, Fl.not_lt_of_le (Fl.le_of_lt hlt)⟩
  · rcases npMax_cases (B.lo i) (2 * B.hi i - x i) with e | ⟨e, -⟩ | ⟨e, hlt⟩
    · rw [e]; simp
    · rw [e]; exact inBox_notOut ⟨Fl.le_refl (Fl.ne_nan_of_le_left (B.le i)), B.le i⟩
    · rw [e]; exact ⟨Fl.not_lt_of_le (Fl.le_of_lt hlt), (hm i).above _ h⟩

/-- **C09, `wang`**, finite bounds and finite input in exact arithmetic: the result is in the box. -/
theorem C09_wang_exact (fn : Fn → Fl → Fl) (B : Box D) (x : Vec D)
    (hfin : ∀ i, ∃ lo hi v, B.lo i = .fin lo ∧ B.hi i = .fin hi ∧ x i = .fin v) :
    B.Mem (@wang D (exactArith fn) B x) := by
  letI := exactArith fn
  refine (C09_wang B (fun i => mirrorLaw_exact fn _ _) x).mem fun i => ?_
  obtain ⟨lo, hi, v, h1, h2, h3⟩ := hfin i
  rw [wang_eq, h1, h2, h3]
  have e1 : (2 * Fl.fin lo - Fl.fin v : Fl) = .fin (2 * lo + -v) := rfl
  have e2 : ∀ q, (2 * Fl.fin hi - Fl.fin q : Fl) = .fin (2 * hi + -q) := fun _ => rfl
  unfold twoStep
  rw [e1]
  simp only [Fl.npMin, Fl.npMax]
  by_cases hv : Fl.fin v < .fin lo
  · by_cases hq : Fl.fin (2 * lo + -v) < Fl.fin hi
    · have : ¬ Fl.fin hi < Fl.fin (2 * lo + -v) := Fl.not_lt_of_le (Fl.le_of_lt hq)
      simp [hv, hq, this]
    · simp [hv, hq, Fl.lt_irrefl]
  · by_cases hq : Fl.fin hi < Fl.fin v
    · simp only [hv, hq, if_true, if_false, e2]
      simp only [reduceCtorEq, or_self, if_false]
      split <;> simp
    · simp [hv, hq]

/-- **C09, `reflect`**, finite bounds with `lower < upper` and finite input in exact arithmetic. -/
theorem C09_reflect (fn : Fn → Fl → Fl) (B : Box D) (x : Vec D)
    (hfin : ∀ i, ∃ lo hi v, lo < hi ∧ B.lo i = .fin lo ∧ B.hi i = .fin hi ∧ x i = .fin v) :
    B.Mem (@reflect D (exactArith fn) B x) := by
  intro i
  obtain ⟨lo, hi, v, h, h1, h2, h3⟩ := hfin i
  rw [reflect_fin fn B x i lo hi v h h1 h2 h3, h1, h2]
  have := reflX_mem v lo hi h
  by_cases hc : hi < v ∨ v < lo
  · simp only [hc, if_true, Fl.fin_le_fin]; exact ⟨this.1, this.2.le⟩
  · simp only [hc, if_false, Fl.fin_le_fin]; push Not at hc; exact ⟨hc.2, hc.1⟩

/-- A box with a coordinate of width 0 (a fixed variable): lower = upper = 1. -/
def pointBox : Box 1 := ⟨fun _ => 1, fun _ => 1, fun _ => by decide⟩

/-- **C09 fails for `reflect` when `lower = upper`:** the coordinate becomes NaN (a remainder modulo 0) and the
solution is not feasible. -/
theorem C09_reflect_point_false (fn : Fn → Fl → Fl) :
    (@reflect 1 (exactArith fn) pointBox fun _ => 2) = (fun _ => .nan) ∧
    ¬ pointBox.Mem (@reflect 1 (exactArith fn) pointBox fun _ => 2) := by
  have h : (@reflect 1 (exactArith fn) pointBox fun _ => 2) = fun _ => .nan := by
    funext i
    have hmod : (letI := exactArith fn; (1 + 2 % (1 - 1) : Fl)) = .nan := by
      change Fl.addX (.fin 1) (Fl.modX (.fin 2) (Fl.addX (.fin 1) (-(.fin 1)))) = _
      decide +kernel
    have hlt : (1 : Fl) < 2 := by decide
    simp only [reflect, setWhere, pointBox, hlt, hmod, decide_true, if_true]
    simp
  refine ⟨h, ?_⟩
  rw [h]; intro hm; have := (hm 0).1; simp at this

/-- The box `[0,10] × [0,10]` and a point outside. -/
def Ex.box : Box 2 := ⟨fun _ => 0, fun _ => 10, fun _ => by decide⟩
def Ex.out : Vec 2 := ![Fl.fin (-3), Fl.fin 12]

example : limit Ex.box Ex.out = ![0, 10] := by decide +kernel
example : limitInverse Ex.box Ex.out = ![10, 0] := by decide +kernel
example : @wang 2 (exactArith) Ex.box Ex.out = ![3, 8] := by decide +kernel
example : @reflect 2 (exactArith) Ex.box Ex.out = ![7, 2] := by decide +kernel
example : ∀ i, ∃ lo hi v, lo < hi ∧ Ex.box.lo i = .fin lo ∧ Ex.box.hi i = .fin hi ∧ Ex.out i = .fin v := fun i =>
  ⟨0, 10, ![-3, 12] i, by norm_num, rfl, rfl, by fin_cases i <;> rfl⟩

/-! ## C10: feasible vectors are left alone; repairing twice is repairing once -/

/-- **C10 (identity).** A vector with no coordinate out of bounds is returned unchanged by every repair function, in
every arithmetic. -/
theorem C10_identity [Arith] (B : Box D) (rng : Rng) (k : ℕ) (x : Vec D) (h : B.NotOut x) :
    limit B x = x ∧ limitInverse B x = x ∧ wang B x = x ∧ rand B rng k x = x ∧ reflect B x = x := by
  refine ⟨?_, ?_, ?_, ?_, ?_⟩
  · funext i; exact clip_id (B.le i) (h i).1 (h i).2
  · funext i; rw [limitInverse_eq]; exact twoStep_id (h i).1 (h i).2
  · funext i; rw [wang_eq]; exact twoStep_id (h i).1 (h i).2
  · funext i; rw [rand_eq]; exact twoStep_id (h i).1 (h i).2
  · funext i; simp [reflect, setWhere, (h i).1, (h i).2]

/-- **C10 (idempotence).** -/
theorem C10_idempotent [Arith] (B : Box D) (rng : Rng) (k k' : ℕ) (x : Vec D)
    (hm : ∀ i, MirrorLaw (B.lo i) (B.hi i)) :
    limit B (limit B x) = limit B x ∧ limitInverse B (limitInverse B x) = limitInverse B x ∧
    rand B rng k' (rand B rng k x) = rand B rng k x ∧ wang B (wang B x) = wang B x := by
  refine ⟨(C10_identity B rng k _ (C09_limit B x).1).1, (C10_identity B rng k _ (C09_limit_inverse B x).1).2.1,
    (C10_identity B rng k' _ (C09_rand B rng k x).1).2.2.2.1, (C10_identity B rng k _ (C09_wang B hm x)).2.2.1⟩

/-- **C10 (idempotence of `reflect`)**, finite bounds and input, exact arithmetic. -/
theorem C10_idempotent_reflect (fn : Fn → Fl → Fl) (B : Box D) (x : Vec D)
    (hfin : ∀ i, ∃ lo hi v, lo < hi ∧ B.lo i = .fin lo ∧ B.hi i = .fin hi ∧ x i = .fin v) :
    (letI := exactArith fn; reflect B (reflect B x) = reflect B x) := by
  letI := exactArith fn
  have h := (C09_reflect fn B x hfin).notOut
  exact (C10_identity B (Ex.Draws.rng {}) 0 _ h).2.2.2.2

example : Ex.box.NotOut ![3, 8] := by decide +kernel
example (i : Fin 2) : @MirrorLaw exactArith (Ex.box.lo i) (Ex.box.hi i) := mirrorLaw_exact _ _ _

/-! ## C12: NaN survives -/

/-- **C12.** A NaN coordinate is returned as NaN by every repair function, in every arithmetic, and the other
coordinates cannot change that: the repaired vector is infeasible. -/
theorem C12_nan [Arith] (B : Box D) (rng : Rng) (k : ℕ) (x : Vec D) (i : Fin D) (h : x i = .nan) :
    limit B x i = .nan ∧ limitInverse B x i = .nan ∧ wang B x i = .nan ∧ rand B rng k x i = .nan ∧
    reflect B x i = .nan := by
  have h1 : ¬ x i < B.lo i := by rw [h]; simp
  have h2 : ¬ B.hi i < x i := by rw [h]; simp
  refine ⟨?_, ?_, ?_, ?_, ?_⟩
  · simp [limit, h, clip_nan]
  · rw [limitInverse_eq, twoStep_id h1 h2, h]
  · rw [wang_eq, twoStep_id h1 h2, h]
  · rw [rand_eq, twoStep_id h1 h2, h]
  · simp [reflect, setWhere, h]

example : limit Ex.box ![.nan, 12] = ![.nan, 10] := by decide +kernel

/-! ## C13: reflection -/

/-- What "reflection of how much the solution violates a bound" means for a violation not larger than the width. -/
def mirrored (v lo hi : ℚ) : ℚ := if hi < v then hi - (v - hi) else if v < lo then lo + (lo - v) else v

/-- **C13 is false:** with bounds 1 and 3 the coordinate 4 exceeds the upper bound by 1; its mirror image is 2, but
`reflect` returns 1. -/
theorem C13_reflect_false (fn : Fn → Fl → Fl) :
    ∃ (B : Box 1) (v : ℚ), B.lo 0 = 1 ∧ B.hi 0 = 3 ∧ 3 < v ∧ v - 3 ≤ 3 - 1 ∧
      @reflect 1 (exactArith fn) B (fun _ => .fin v) 0 ≠ .fin (mirrored v 1 3) := by
  let B : Box 1 := ⟨fun _ => .fin 1, fun _ => .fin 3, fun _ => by decide⟩
  refine ⟨B, 4, rfl, rfl, by norm_num, by norm_num, ?_⟩
  rw [reflect_fin fn B _ 0 1 3 4 (by norm_num) rfl rfl rfl]
  decide +kernel

/-- **C13 (partial).** What `reflect` really does with a violating coordinate, in exact arithmetic: it returns
`lower + v mod (upper - lower)`, that is the point of `[lower, upper)` that differs from `lower + v` by a multiple of
the width. Missing: it is not the mirror image. -/
theorem C13_reflect_partial (fn : Fn → Fl → Fl) (B : Box D) (x : Vec D) (i : Fin D) (lo hi v : ℚ) (h : lo < hi)
    (hlo : B.lo i = .fin lo) (hhi : B.hi i = .fin hi) (hv : x i = .fin v) (hout : hi < v ∨ v < lo) :
    ∃ (r : ℚ) (m : ℤ), @reflect D (exactArith fn) B x i = .fin r ∧ lo ≤ r ∧ r < hi ∧ r = lo + v + m * (hi - lo) := by
  refine ⟨reflX v lo hi, -⌊v / (hi - lo)⌋, ?_, (reflX_mem v lo hi h).1, (reflX_mem v lo hi h).2, ?_⟩
  · rw [reflect_fin fn B x i lo hi v h hlo hhi hv, if_pos hout]
  · unfold reflX; push_cast; ring

example : (3 : ℚ) < 4 ∧ @reflect 1 exactArith ⟨fun _ => .fin 1, fun _ => .fin 3, fun _ => by decide⟩ (fun _ => .fin 4)
    = fun _ => .fin 1 := by refine ⟨by norm_num, ?_⟩; decide +kernel

end Repair

/-! ## C11: `is_feasible` -/

variable {D : ℕ}

/-- **C11.** `is_feasible` is true exactly of the points of the box. -/
theorem C11_is_feasible (B : Box D) (x : Vec D) : isFeasible B x = true ↔ ∀ i, B.lo i ≤ x i ∧ x i ≤ B.hi i := by
  simp [isFeasible]

/-- **C11 (NaN).** A vector with a NaN coordinate is never feasible. -/
theorem C11_nan_infeasible (B : Box D) (x : Vec D) (i : Fin D) (h : x i = .nan) : isFeasible B x = false := by
  rw [Bool.eq_false_iff]
  intro hf
  have := ((C11_is_feasible B x).1 hf i).1
  rw [h] at this; simp at this

/-- **C11 (after repair).** A NaN-free vector is feasible after `limit`, `limit_inverse` and `rand`. -/
theorem C11_repaired_feasible (B : Box D) (rng : Rng) (k : ℕ) (x : Vec D) (h : ∀ i, x i ≠ .nan) :
    isFeasible B (Repair.limit B x) = true ∧ isFeasible B (Repair.limitInverse B x) = true ∧
    isFeasible B (Repair.rand B rng k x) = true := by
  simp only [C11_is_feasible]
  exact ⟨(Repair.C09_limit B x).2 h, (Repair.C09_limit_inverse B x).2 h, (Repair.C09_rand B rng k x).2 h⟩

example : isFeasible Repair.Ex.box ![3, 8] = true ∧ isFeasible Repair.Ex.box Repair.Ex.out = false := by decide +kernel

/-! ## C14, C15: array helpers -/

theorem replicate_flatten_getElem? (l : List Fl) (k i : ℕ) (h : i < k * l.length) :
    (List.replicate k l).flatten[i]? = l[i % l.length]? := by
  induction k generalizing i with
  | zero => simp at h
  | succ k ih =>
    rw [List.replicate_succ, List.flatten_cons]
    by_cases hi : i < l.length
    · rw [List.getElem?_append_left hi, Nat.mod_eq_of_lt hi]
    · push Not at hi
      rw [List.getElem?_append_right hi, ih _ (by rw [Nat.succ_mul] at h; omega), Nat.mod_eq_sub_mod hi]

/-- **C14.** Exactly when an array is returned, and what it contains. -/
theorem C14_full_array (a : ArrayArg) (n : ℕ) :
    (∀ v, a = .scalar v → ∃ out, fullArray a n = .ok out ∧ out.length = n ∧ ∀ i, i < n → out[i]? = some v) ∧
    (∀ l, a = .seq l → (l ≠ [] ∨ n = 0) → ∃ out, fullArray a n = .ok out ∧ out.length = n ∧
      ∀ i, i < n → out[i]? = l[i % l.length]?) ∧
    (a = .seq [] → n ≠ 0 → fullArray a n = .error .zeroDivisionError) ∧
    (a = .other → fullArray a n = .error .typeError) := by
  refine ⟨?_, ?_, ?_, ?_⟩
  · rintro v rfl
    refine ⟨_, rfl, by simp, fun i hi => by simp [hi]⟩
  · rintro l rfl hne
    simp only [fullArray]
    split
    · rename_i h
      exact ⟨l, rfl, h, fun i hi => by rw [Nat.mod_eq_of_lt (by omega)]⟩
    · split
      · rename_i h
        refine ⟨_, rfl, by simp; omega, fun i hi => ?_⟩
        rw [List.getElem?_take_of_lt hi, Nat.mod_eq_of_lt (by omega)]
      · rename_i h1 h2
        have hl : 0 < l.length := by
          rcases hne with h | h
          · exact List.length_pos_iff.2 h
          · omega
        rw [if_neg (by omega)]
        have hk : n ≤ (n + l.length - 1) / l.length * l.length := by
          have h3 := Nat.div_add_mod (n + l.length - 1) l.length
          have h4 := Nat.mod_lt (n + l.length - 1) hl
          rw [Nat.mul_comm] at h3
          omega
        refine ⟨_, rfl, ?_, fun i hi => ?_⟩
        · simp [List.length_flatten]; omega
        · rw [List.getElem?_take_of_lt hi, replicate_flatten_getElem? _ _ _ (by omega)]
  · rintro rfl h
    have : ¬ (0 = n) := fun h' => h h'.symm
    simp [fullArray, this]
  · rintro rfl; rfl

example : fullArray (.seq [.fin 1, .fin 2]) 5 = .ok [.fin 1, .fin 2, .fin 1, .fin 2, .fin 1] := by rfl
example : fullArray (.scalar 3) 2 = .ok [3, 3] := by rfl

theorem foldl_set_spec {α : Type} (objs : List α) (pre : List (Option α)) :
    ((objs.zipIdx pre.length).foldl (fun a p => a.set p.2 (some p.1)) (pre ++ List.replicate objs.length none)) =
      pre ++ objs.map some := by
  induction objs generalizing pre with
  | nil => simp
  | cons o os ih =>
    simp only [List.zipIdx_cons, List.foldl_cons, List.length_cons, List.replicate_succ, List.map_cons]
    have h1 : (pre ++ none :: List.replicate os.length none).set pre.length (some o) =
        (pre ++ [some o]) ++ List.replicate os.length none := by
      rw [List.set_append_right _ _ (le_refl _)]; simp
    rw [h1]
    have := ih (pre ++ [some o])
    simpa using this

/-- **C15.** One entry per object, in order. -/
theorem C15_objects_to_array {α : Type} (objs : List α) : objectsToArray objs = objs.map some := by
  have := foldl_set_spec objs []
  simpa [objectsToArray] using this

example : objectsToArray [3, 1, 2] = [some 3, some 1, some 2] := by rfl

end NiaPy
