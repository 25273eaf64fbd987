import Verif.Runs
import Mathlib.Tactic.Ring
import Mathlib.Tactic.FieldSimp
import Mathlib.Tactic.Positivity
import Mathlib.Tactic.Linarith
import Verif.PopTools

/-!
# Gravitational search algorithm (`niapy/algorithms/basic/gsa.py`)
-/

namespace NiaPy.GSA
open NiaPy
variable [Arith] {D N : ℕ}

/-- Parameters (gsa.py:57-71). -/
structure Par where
  g0 : Fl
  epsilon : Fl

/-- State of a run: population, fitness values and velocities (gsa.py:118-137). -/
structure St (D N : ℕ) where
  pop : Fin N → Vec D
  fit : Fin N → Fl
  vel : Fin N → Vec D

/-- `init_population` (gsa.py:118-137). -/
def init (B : Box D) (N : ℕ) : Prog (Vec D) (St D N) := do
  let (pop, fit) ← defaultNumpyInit B N
  return ⟨pop, fit, fun _ _ => 0⟩

/-- The masses (gsa.py:162-164). `best` and `worst` are the fitness values at `argmin` and `argmax`. -/
def masses (fit : Fin N → Fl) (best worst : Fl) : Fin N → Fl :=
  let m : Fin N → Fl := fun i => (fit i - worst) / (best - worst)
  fun i => m i / vsum m

/-- `np.argmin(f)` as the value at that index; `argmax` is the `argmin` of the negated values. -/
def minOf (f : Fin N → Fl) : Prog (Vec D) Fl := argminRec id (List.ofFn f)

/-- `gravity` (gsa.py:106-116) -/
def gravity (p : Par) (v : TaskView) : Fl := p.g0 / Fl.ofNat (v.iters + 1)

/-- `run_iteration` (gsa.py:139-173). -/
def iter (p : Par) (s : St D N) (xb : Vec D) (fxb : Fl) : Prog (Vec D) (St D N × Vec D × Fl) := do
  let best ← minOf s.fit
  let worst ← minOf fun i => -s.fit i
  let v ← Prog.look
  let m := masses s.fit best (-worst)
  let force : Fin N → Fin N → Vec D := fun i j d =>
    gravity p v * (m i * m j / (euclid (s.pop i) (s.pop j) + p.epsilon)) * (s.pop j d - s.pop i d)
  let u ← tabM N fun _ => randVec D
  let total : Fin N → Vec D := fun i d => vsum fun j => u j d * force i j d
  let w ← tabM N fun _ => randVec D
  let vel : Fin N → Vec D := fun i d => w i d * s.vel i d + total i d / (m i + p.epsilon)
  let pop ← repairRows fun i d => s.pop i d + vel i d
  let fit ← evalRows pop
  let (xb, fxb) ← Prog.getBest (List.ofFn pop) (List.ofFn fit) xb fxb
  return (⟨pop, fit, vel⟩, xb, fxb)

/-- The gravitational search algorithm with population size `N` (gsa.py). -/
def alg (B : Box D) (N : ℕ) (p : Par) : Alg (Vec D) where
  σ := St D N
  init := init B N
  pop s := List.ofFn s.pop
  fit s := List.ofFn s.fit
  iter := iter p

/-- The obligations of the gravitational search algorithm: `N` evaluations in the beginning and per iteration. -/
theorem verified (B : Box D) (N : ℕ) (p : Par) : Verified (alg B N p) B.Mem true true (.exact N N) := by
  refine ⟨fun C s b => ∀ i, C.Fit b (s.pop i) (s.fit i), fun C hG hent _ => ⟨fun s b h => forall₂_ofFn h, fun g hg => ?_, ?_⟩⟩
  · simp only [alg, init, Prog.wp_bind']
    exact wp_initArr hG hg fun r g' _ _ h3 h4 h5 => ⟨h3, h4, h5⟩
  · intro s xb fxb g hI hF hc
    have hinc : Inc C xb fxb g := ⟨hF, hc⟩
    simp only [alg, iter, minOf, Prog.wp_bind']
    refine wp_argminRec fun best _ _ => wp_argminRec fun worst _ _ => ?_
    rw [Prog.wp_look]
    intro v
    refine Yields.wp (P := fun _ => True) (by yields) fun u _ => Yields.wp (P := fun _ => True) (by yields) fun w _ => ?_
    refine (Yields.repairRows (Or.inl rfl)).wp fun pop hpop => ?_
    refine wp_evalRows hpop hinc.cov fun fit g1 _ hb1 hf1 hc1 hn1 => ?_
    exact wp_getBest_arr hf1 (hinc.toFit.mono hb1) hc1 fun b1 hi1 => ⟨hf1, hi1.fit, hi1.eq, Cost.ok_exact hn1⟩

/-! ## C92: the gravitational constant -/

omit [Arith] in
/-- **C92.** In iteration `t` (counted from 0) the gravitational constant is `g0 / (t + 1)`: `g0` at first, then positive and falling. -/
theorem C92_gsa (fn : Fn → Fl → Fl) (p : Par) (g0 : ℚ) (hg : p.g0 = .fin g0) (hpos : 0 < g0) (v : TaskView) :
    letI := exactArith fn
    gravity p v = .fin (g0 / (v.iters + 1)) ∧ .fin 0 < gravity p v ∧ gravity p v ≤ p.g0 ∧ (v.iters = 0 → gravity p v = p.g0) ∧
      ∀ v' : TaskView, v.iters < v'.iters → gravity p v' < gravity p v := by
  have key : ∀ u : TaskView, @gravity (exactArith fn) p u = .fin (g0 / (u.iters + 1)) := fun u => by
    unfold gravity
    rw [hg, Exact.ofNat_fin, Exact.div_fin fn _ _ (by positivity)]
    push_cast
    rfl
  refine ⟨key v, ?_, ?_, fun h => ?_, fun v' hlt => ?_⟩
  · rw [key v, Fl.fin_lt_fin]
    positivity
  · rw [key v, hg, Fl.fin_le_fin]
    exact div_le_self hpos.le (by simp)
  · rw [key v, hg, h]
    simp
  · rw [key v, key v', Fl.fin_lt_fin]
    exact div_lt_div_of_pos_left hpos (by positivity) (by exact_mod_cast Nat.succ_lt_succ hlt)

example : letI := Ex.arith; gravity ⟨.fin 2, .fin 1⟩ ⟨4, 30, some 10, none, false⟩ = .fin (2 / 5) := by decide +kernel

end NiaPy.GSA
