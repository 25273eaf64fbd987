import Mathlib.Tactic.Ring
import Mathlib.Tactic.FieldSimp
import Mathlib.Tactic.Positivity
import Mathlib.Tactic.Linarith
import Verif.Algo.DE

/-!
# Moth flame optimizer (`niapy/algorithms/basic/mfo.py`)
-/

namespace NiaPy.MFO
open NiaPy
variable [Arith] {D N : ℕ}

/-- State of a run. -/
structure St (D N : ℕ) where
  pop : Fin N → Vec D
  fit : Fin N → Fl

/-- `Algorithm.init_population` with the default initialization (algorithm.py:246-264). -/
def init (B : Box D) (N : ℕ) : Prog (Vec D) (St D N) := do
  let (pop, fit) ← defaultNumpyInit B N
  return ⟨pop, fit⟩

/-- `l[k]` for an index that is already known not to be negative or to have been made so. -/
def rowAt (l : Fin N → Vec D) (k : ℤ) : Except PyErr (Vec D) :=
  if h : 0 ≤ k ∧ k < N then .ok (l ⟨k.toNat, by omega⟩) else .error .indexError

/-- `l[k]` for a Python index `k`, which may be negative; raises `IndexError` if it is out of range. -/
def pyIndex (l : Fin N → Vec D) (k : ℤ) : Except PyErr (Vec D) := rowAt l (if k < 0 then k + N else k)

/-- The number of flames before rounding, and `a` (mfo.py:85-86). -/
def flames (N iters : ℕ) (maxIters : Option ℕ) : Fl := Fl.ofNat N - Fl.ofNat (iters + 1) * ((Fl.ofNat N - 1) / limF maxIters)
def slope (iters : ℕ) (maxIters : Option ℕ) : Fl := -1 + Fl.ofNat (iters + 1) * (-1 / limF maxIters)

/-- The integer that `round` has returned. -/
def toInt : Fl → ℤ
  | .fin q => ⌊q⌋
  | _ => 0

/-- The moves of a moth (mfo.py:87-94): `flame` is its flame, `own` the one of the sorted population with the same index. -/
def move (a : Fl) (x own flame : Vec D) : Prog (Vec D) (Vec D) := tabM D fun j => do
  let r ← Prog.rand
  let t := (a - 1) * r + 1
  return Fl.abs (own j - x j) * Arith.fn .exp (1 * t) * Arith.fn .cos (Fl.ofNat 2 * piF * t) + flame j

/-- `run_iteration` (mfo.py:56-98). -/
def iter (s : St D N) (xb : Vec D) (fxb : Fl) : Prog (Vec D) (St D N × Vec D × Fl) := do
  let si ← sortIdx s.fit
  let v ← Prog.look
  let fn ← Prog.ofExcept (DE.pyRound (flames N v.iters v.maxIters))
  let pop ← tabM N fun i => do
    let flame ← Prog.ofExcept (if (i : ℤ) ≤ toInt fn then .ok (s.pop (si i)) else pyIndex (fun k => s.pop (si k)) (toInt fn))
    move (slope v.iters v.maxIters) (s.pop i) (s.pop (si i)) flame
  let pop ← repairRows pop
  let fit ← evalRows pop
  let (xb, fxb) ← Prog.getBest (List.ofFn pop) (List.ofFn fit) xb fxb
  return (⟨pop, fit⟩, xb, fxb)

/-- The moth flame optimizer with population size `N` (mfo.py). -/
def alg (B : Box D) (N : ℕ) : Alg (Vec D) where
  σ := St D N
  init := init B N
  pop s := List.ofFn s.pop
  fit s := List.ofFn s.fit
  iter := iter

variable {C : Ctx (Vec D)}

theorem move_quiet (a : Fl) (x own flame : Vec D) : Quiet C (move a x own flame) := by
  unfold move
  yields

theorem wp_round {f : Fl} {g : Ghost (Vec D)} {Q : Fl → Ghost (Vec D) → Prop} (h : ∀ v, Q v g) :
    (Prog.ofExcept (DE.pyRound f)).wp C Q g := by
  rw [Prog.wp_ofExcept]
  refine ⟨fun v _ => h v, fun he => ?_⟩
  unfold DE.pyRound at he
  split at he <;> cases he

theorem flame_quiet (i : ℤ) (own : Vec D) (l : Fin N → Vec D) (k : ℤ) :
    Quiet C (Prog.ofExcept (if i ≤ k then .ok own else pyIndex l k) : Prog (Vec D) (Vec D)) := by
  refine ⟨fun g => ?_⟩
  rw [Prog.wp_ofExcept]
  refine ⟨fun v _ => ⟨trivial, rfl⟩, fun he => ?_⟩
  split at he
  · cases he
  · unfold pyIndex at he
    generalize (if k < 0 then k + (N : ℤ) else k) = k' at he
    unfold rowAt at he
    split at he <;> cases he

/-- The obligations of the moth flame optimizer: `N` evaluations in the beginning and per iteration. -/
theorem verified (B : Box D) (N : ℕ) : Verified (alg B N) B.Mem true true (.exact N N) := by
  refine ⟨fun C s b => ∀ i, C.Fit b (s.pop i) (s.fit i), fun C hG hent _ => ⟨fun s b h => forall₂_ofFn h, fun g hg => ?_, ?_⟩⟩
  · simp only [alg, init, Prog.wp_bind']
    exact wp_initArr hG hg fun r g' _ _ h3 h4 h5 => ⟨h3, h4, h5⟩
  · intro s xb fxb g hI hF hc
    have hinc : Inc C xb fxb g := ⟨hF, hc⟩
    simp only [alg, iter, Prog.wp_bind', Prog.wp_look]
    refine Yields.sortIdx.quiet.wp fun si _ v => ?_
    refine wp_round fun fn => ?_
    refine Yields.wp (P := fun _ => True) (Yields.tabMT fun i => Yields.bindT (flame_quiet ..) fun _ => move_quiet ..) fun pop0 _ => ?_
    refine (Yields.repairRows (Or.inl rfl)).wp fun pop hpop => ?_
    refine wp_evalRows hpop hinc.cov fun fit g1 _ hb1 hf1 hc1 hn1 => ?_
    exact wp_getBest_arr hf1 (hinc.toFit.mono hb1) hc1 fun b1 hi1 => ⟨hf1, hi1.fit, hi1.eq, Cost.ok_exact hn1⟩

/-! ## C92: flames and slope -/

omit [Arith] in
theorem neg_one : (-1 : Fl) = .fin (-1) := by rw [Exact.one_fin]; rfl

omit [Arith] in
/-- **C92.** In iteration `t` of `T` (counted from 0) the number of flames, before it is rounded, falls from `N` to 1 in the last iteration, and the slope
from -1 to -2. -/
theorem C92_mfo (fn : Fn → Fl → Fl) (hN : 1 ≤ N) (t T : ℕ) (hlt : t < T) :
    letI := exactArith fn
    flames N t (some T) = .fin (N - (N - 1) * ((t + 1) / T)) ∧ .fin 1 ≤ flames N t (some T) ∧ flames N t (some T) ≤ .fin N ∧
      (t + 1 = T → flames N t (some T) = .fin 1) ∧ (∀ t', t ≤ t' → flames N t' (some T) ≤ flames N t (some T)) ∧
      slope t (some T) = .fin (-1 - (t + 1) / T) ∧ .fin (-2) ≤ slope t (some T) ∧ slope t (some T) < .fin (-1) ∧
      (t + 1 = T → slope t (some T) = .fin (-2)) := by
  have hpos : 0 < T := by omega
  have hT' : (0 : ℚ) < T := by exact_mod_cast hpos
  have hN' : (1 : ℚ) ≤ N := by exact_mod_cast hN
  have key : ∀ u : ℕ, @flames (exactArith fn) N u (some T) = .fin (N - (N - 1) * ((u + 1) / T)) := fun u => by
    unfold flames
    simp only [Exact.ofNat_fin, Exact.one_fin, Exact.sub_fin, Exact.div_some fn _ hpos, Exact.mul_fin, Fl.fin.injEq]
    push_cast
    ring
  have m1 := neg_one
  have key' : @slope (exactArith fn) t (some T) = .fin (-1 - (t + 1) / T) := by
    unfold slope
    simp only [m1]
    simp only [Exact.ofNat_fin, Exact.div_some fn _ hpos, Exact.mul_fin, Exact.add_fin, Fl.fin.injEq]
    push_cast
    ring
  have hle : ((t : ℚ) + 1) / T ≤ 1 := (div_le_one hT').2 (by exact_mod_cast hlt)
  have hge : (0 : ℚ) < ((t : ℚ) + 1) / T := by positivity
  have hlast : t + 1 = T → ((t : ℚ) + 1) / T = 1 := fun h => by rw [← h]; push_cast; exact div_self (by positivity)
  refine ⟨key t, ?_, ?_, fun h => ?_, fun t' ht' => ?_, key', ?_, ?_, fun h => ?_⟩
  · rw [key t, Fl.fin_le_fin]
    nlinarith
  · rw [key t, Fl.fin_le_fin]
    nlinarith
  · rw [key t, hlast h]
    congr 1
    ring
  · rw [key t, key t', Fl.fin_le_fin]
    have : ((t : ℚ) + 1) / T ≤ (t' + 1) / T := (div_le_div_iff_of_pos_right hT').2 (by exact_mod_cast Nat.succ_le_succ ht')
    nlinarith
  · rw [key', Fl.fin_le_fin]
    linarith
  · rw [key', Fl.fin_lt_fin]
    linarith
  · rw [key', hlast h]
    norm_num

omit [Arith] in
/-- **C92 fails without that limit**: there are `N` flames and the slope is -1 throughout. -/
theorem C92_mfo_false (fn : Fn → Fl → Fl) (t : ℕ) : letI := exactArith fn; flames N t none = .fin N ∧ slope t none = .fin (-1) := by
  have m1 := neg_one
  simp only [flames, slope, m1]
  simp only [Exact.ofNat_fin, Exact.one_fin, Exact.sub_fin, Exact.div_none, Exact.mul_fin, Exact.add_fin, mul_zero, sub_zero, add_zero, and_self]

example : letI := Ex.arith; flames 11 4 (some 10) = .fin 6 ∧ slope 4 (some 10) = .fin (-3 / 2) := by decide +kernel

end NiaPy.MFO
