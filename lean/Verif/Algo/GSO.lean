import Verif.PopTools
import Verif.Runs

/-!
# Glowworm swarm optimization, four variants (`niapy/algorithms/basic/gso.py`)
-/

namespace NiaPy.GSO
open NiaPy
variable [Arith] {D N : ℕ}

/-- Parameters (gso.py:65-87), with `distance` as a function and the methods that the variants override:
`calculate_luciferin` and `range_update`. -/
structure Par (D : ℕ) where
  l0 : Fl
  s : Fl
  distance : Vec D → Vec D → Fl
  luc : Fl → Fl → Fl
  range : Fl → ℕ → Fl → Fl

/-- State of a run: population, fitness values, luciferin and ranges (gso.py:192-213). -/
structure St (D N : ℕ) where
  pop : Fin N → Vec D
  fit : Fin N → Fl
  luc : Fin N → Fl
  ranges : Fin N → Fl

/-- The sensing range (gso.py:209). -/
def sensing (B : Box D) : Fl := euclid (fun _ => 0) fun d => B.hi d - B.lo d

/-- `init_population` (gso.py:192-213). -/
def init (B : Box D) (N : ℕ) (p : Par D) : Prog (Vec D) (St D N) := do
  let (pop, fit) ← defaultNumpyInit B N
  return ⟨pop, fit, fun _ => p.l0, fun _ => sensing B⟩

/-- `get_neighbors` (gso.py:132-148). -/
def neighbors (p : Par D) (pop : Fin N → Vec D) (luc : Fin N → Fl) (r : Fl) (i j : Fin N) : Bool :=
  i ≠ j ∧ p.distance (pop i) (pop j) ≤ r ∧ luc j ≤ luc i

/-- `probabilities` (gso.py:150-165) at its own index: the only entry `move_select` looks at. `eps` is `2^-52`. -/
def probability (nb : Fin N → Bool) (luc : Fin N → Fl) (i : Fin N) : Fl :=
  let d := vsum (fun j => if nb j then luc j - luc i else 0) + lit 1 (2 ^ 52)
  if nb i then (luc i - luc i) / d else 0

/-- Loop of `move_select` (gso.py:178-182); it uses `pb[i]`, not `pb[j]`. -/
def moveGo (pb r : Fl) : Fl → List (Fin N) → Option (Fin N)
  | _, [] => none
  | bu, j :: js => if bu < r ∧ r < bu + pb then some j else moveGo pb r (bu + pb) js

/-- `move_select` (gso.py:167-183). -/
def moveSelect (pb : Fl) : Prog (Vec D) (Fin N) := do
  let r ← Prog.rand
  match moveGo pb r 0 (List.finRange N) with
  | some j => return j
  | none => intFin N

/-- Number of neighbours, `np.sum(neighbors)`. -/
def count (nb : Fin N → Bool) : ℕ := (List.finRange N).countP nb

/-- Python's `max(0.0, min(s, r))`. -/
def clampRange (s r : Fl) : Fl :=
  let m := if r < s then r else s
  if 0 < m then m else 0

/-- `run_iteration` (gso.py:215-257). -/
def iter (B : Box D) (p : Par D) (s : St D N) (xb : Vec D) (fxb : Fl) : Prog (Vec D) (St D N × Vec D × Fl) := do
  let luc := fun i => p.luc (s.luc i) (s.fit i)
  let nb := fun i => neighbors p s.pop luc (s.ranges i) i
  let j ← tabM N fun i => moveSelect (probability (nb i) luc i)
  let pop ← tabM N fun i =>
    Prog.repair fun d => s.pop i d + p.s * ((s.pop (j i) d - s.pop i d) / (p.distance (s.pop (j i)) (s.pop i) + lit 1 (10 ^ 31)))
  let ranges := fun i => clampRange (sensing B) (p.range (s.ranges i) (count (nb i)) (sensing B))
  let fit ← evalRows pop
  let (xb, fxb) ← Prog.getBest (List.ofFn pop) (List.ofFn fit) xb fxb
  return (⟨pop, fit, luc, ranges⟩, xb, fxb)

/-- Glowworm swarm optimization with population size `N` (gso.py), for any luciferin and range update. -/
def alg (B : Box D) (N : ℕ) (p : Par D) : Alg (Vec D) where
  σ := St D N
  init := init B N p
  pop s := List.ofFn s.pop
  fit s := List.ofFn s.fit
  iter := iter B p

/-- Constants (gso.py:65-87); `alpha` of V2 and `beta1` of V3. -/
structure Const where
  nt : Fl
  rho : Fl
  gamma : Fl
  beta : Fl
  alpha : Fl
  beta1 : Fl

/-- `calculate_luciferin` (gso.py:185-186). -/
def luc0 (c : Const) (l f : Fl) : Fl := (1 - c.rho) * l + c.gamma * f

/-- `GlowwormSwarmOptimization` (gso.py:188-190). -/
def base (c : Const) (l0 s : Fl) (distance : Vec D → Vec D → Fl) : Par D :=
  ⟨l0, s, distance, luc0 c, fun r n _ => r + c.beta * (c.nt - Fl.ofNat n)⟩

/-- `GlowwormSwarmOptimizationV1` (gso.py:301-307): `np.fmax` ignores NaN. -/
def v1 (c : Const) (l0 s : Fl) (distance : Vec D → Vec D → Fl) : Par D :=
  ⟨l0, s, distance, fun l f => if 0 ≤ luc0 c l f then luc0 c l f else 0,
    fun _ n sr => sr / (1 + c.beta * (Fl.ofNat n / (piF * Arith.pow sr (Fl.ofNat 2))))⟩

/-- `GlowwormSwarmOptimizationV2` (gso.py:375-377). -/
def v2 (c : Const) (l0 s : Fl) (distance : Vec D → Vec D → Fl) : Par D :=
  ⟨l0, s, distance, luc0 c, fun _ n sr => c.alpha + (sr - c.alpha) / (1 + c.beta * Fl.ofNat n)⟩

/-- `GlowwormSwarmOptimizationV3` (gso.py:445-447): the conditional expression binds weaker than `+`, so without enough
neighbours the old range is dropped. -/
def v3 (c : Const) (l0 s : Fl) (distance : Vec D → Vec D → Fl) : Par D :=
  ⟨l0, s, distance, luc0 c, fun r n _ => if Fl.ofNat n < c.nt then r + c.beta * Fl.ofNat n else -c.beta1 * Fl.ofNat n⟩

variable {C : Ctx (Vec D)}

theorem moveSelect_quiet (pb : Fl) : Quiet C (moveSelect pb : Prog (Vec D) (Fin N)) := by
  unfold moveSelect
  refine Yields.bindT Yields.rand.quiet fun r => ?_
  split
  · exact .pure' trivial
  · exact Yields.intFin

/-- The obligations of glowworm swarm optimization: `N` evaluations in the beginning and per iteration. -/
theorem verified (B : Box D) (N : ℕ) (p : Par D) : Verified (alg B N p) B.Mem true true (.exact N N) := by
  refine ⟨fun C s b => ∀ i, C.Fit b (s.pop i) (s.fit i), fun C hG hent _ => ⟨fun s b h => forall₂_ofFn h, fun g hg => ?_, ?_⟩⟩
  · simp only [alg, init, Prog.wp_bind']
    exact wp_initArr hG hg fun r g' _ _ h3 h4 h5 => ⟨h3, h4, h5⟩
  · intro s xb fxb g hI hF hc
    have hinc : Inc C xb fxb g := ⟨hF, hc⟩
    simp only [alg, iter, Prog.wp_bind']
    refine Yields.wp (Yields.tabMT fun i => moveSelect_quiet _) fun j _ => ?_
    refine (Yields.tabM fun i => Yields.repair).wp fun pop hpop => ?_
    refine wp_evalRows hpop hinc.cov fun fit g1 _ hb1 hf1 hc1 hn1 => ?_
    exact wp_getBest_arr hf1 (hinc.toFit.mono hb1) hc1 fun b1 hi1 => ⟨hf1, hi1.fit, hi1.eq, Cost.ok_exact hn1⟩

omit [Arith] in
theorem moveGo_zero [Arith] (h0 : (0 : Fl) + 0 = 0) (r : Fl) (js : List (Fin N)) : moveGo 0 r 0 js = none := by
  induction js with
  | nil => rfl
  | cons j js ih =>
    rw [moveGo, h0, if_neg, ih]
    rintro ⟨h1, h2⟩
    exact Fl.not_lt_of_le (Fl.le_of_lt h1) h2

/-- C49 is false of the code: whatever the luciferin levels and the neighbours, `move_select` looks only at the probability
of the glowworm itself, which is 0, so the target is a uniformly random glowworm (possibly the glowworm itself, possibly no
neighbour). Needs only that `0 + 0` is 0. -/
theorem C49_move_false (h0 : (0 : Fl) + 0 = 0) (p : Par D) (pop : Fin N → Vec D) (luc : Fin N → Fl) (r : Fl) (i : Fin N) :
    probability (neighbors p pop luc r i) luc i = 0 ∧
    (moveSelect (probability (neighbors p pop luc r i) luc i) : Prog (Vec D) (Fin N)) = (do let _ ← Prog.rand; intFin N) := by
  have hp : probability (neighbors p pop luc r i) luc i = 0 := by simp [probability, neighbors]
  refine ⟨hp, ?_⟩
  simp only [hp, moveSelect, moveGo_zero h0]

/-- The hypothesis holds in exact arithmetic. -/
example : letI := Ex.arith; (0 : Fl) + 0 = 0 := by decide +kernel

/-- A run with two glowworms and two iterations. -/
example : Alg.okIters (@alg Ex.arith 1 (Ex.box 1) 2 (@base Ex.arith 1 ⟨5, lit 2 5, lit 3 5, lit 2 25, lit 1 5, lit 1 5⟩ 5 (lit 3 100)
    (@euclid Ex.arith 1))) Ex.env2 1 5 = some 2 := by decide +kernel

end NiaPy.GSO
