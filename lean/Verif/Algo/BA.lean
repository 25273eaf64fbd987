import Verif.AlgTools

/-!
# Bat algorithm (`niapy/algorithms/basic/ba.py`)
-/

namespace NiaPy.BA
open NiaPy
variable [Arith] {D N : ℕ}

/-- Parameters of the bat algorithm (ba.py:81-110). -/
structure Par where
  loudness : Fl
  pulseRate : Fl
  alpha : Fl
  gamma : Fl
  minFrequency : Fl
  maxFrequency : Fl

/-- State of a run: population, fitness values, `velocities` and `loudness` (ba.py:130-151). -/
structure St (D N : ℕ) where
  pop : Fin N → Vec D
  fit : Fin N → Fl
  vel : Fin N → Vec D
  loud : Fl

/-- `init_population` (ba.py:130-151). -/
def init (B : Box D) (p : Par) : Prog (Vec D) (St D N) := do
  let (pop, fit) ← defaultNumpyInit B N
  return ⟨pop, fit, fun _ _ => 0, p.loudness⟩

/-- `local_search` (ba.py:153-165): no generator is passed to `task.repair`. -/
def localSearch (best : Vec D) (loudness : Fl) : Prog (Vec D) (Vec D) := do
  let z ← normVec D 0 1
  Prog.repair (fun j => best j + lit 1 10 * z j * loudness) false

/-- The candidate of bat `i` (ba.py:197-200). -/
def candidate (best xi vi : Vec D) (loudness pulse : Fl) : Prog (Vec D) (Vec D) := do
  let r ← Prog.rand
  if r < pulse then localSearch best loudness
  else Prog.repair fun j => xi j + vi j

/-- Body of the loop over the bats (ba.py:194-205). The second random number is drawn only if the candidate is not
worse (`and` is lazy). -/
def step (p : Par) (loudness pulse : Fl) (i : Fin N) (a : St D N × Vec D × Fl) : Prog (Vec D) (St D N × Vec D × Fl) := do
  let (s, xb, fxb) := a
  let r ← Prog.rand
  let frequency := p.minFrequency + (p.maxFrequency - p.minFrequency) * r
  let vi : Vec D := fun j => s.vel i j + (s.pop i j - xb j) * frequency
  let s := { s with vel := Function.update s.vel i vi }
  let solution ← candidate xb (s.pop i) vi loudness pulse
  let newFitness ← Prog.eval solution
  let accept ← (if newFitness ≤ s.fit i then do
      let r ← Prog.rand
      return decide (loudness < r)
    else return false)
  let s := if accept = true then
      { s with pop := Function.update s.pop i solution, fit := Function.update s.fit i newFitness }
    else s
  return (s, getBest1 solution newFitness xb fxb)

/-- `run_iteration` (ba.py:167-206). -/
def iter (p : Par) (s : St D N) (xb : Vec D) (fxb : Fl) : Prog (Vec D) (St D N × Vec D × Fl) := do
  let loudness := s.loud * p.alpha
  let v ← Prog.look
  let pulse := p.pulseRate * (1 - Arith.fn .exp (-p.gamma * Fl.ofNat v.iters))
  let (s, xb, fxb) ← forFin N (step p loudness pulse) (s, xb, fxb)
  return ({ s with loud := loudness }, xb, fxb)

/-- The bat algorithm with population size `N` (ba.py). -/
def alg (B : Box D) (N : ℕ) (p : Par) : Alg (Vec D) where
  σ := St D N
  init := init B p
  pop s := List.ofFn s.pop
  fit s := List.ofFn s.fit
  iter := iter p

variable {C : Ctx (Vec D)}

theorem candidate_good (h : C.ent) (best xi vi : Vec D) (loudness pulse : Fl) :
    Yields C (candidate best xi vi loudness pulse) C.G := by
  unfold candidate localSearch
  yields

theorem accept_quiet (c : Prop) [Decidable c] (l : Fl) :
    Quiet C (if c then do let r ← Prog.rand; return decide (l < r) else return false : Prog (Vec D) Bool) := by
  yields

/-- The obligations of the bat algorithm: `N` evaluations in the beginning and per iteration; every point outside the
default initialization is repaired, but without the generator of the algorithm. -/
theorem verified (B : Box D) (N : ℕ) (p : Par) : Verified (alg B N p) B.Mem false true (.exact N N) := by
  refine ⟨fun C s b => ∀ i, C.Fit b (s.pop i) (s.fit i), fun C hG hent _ => ⟨fun s b h => forall₂_ofFn h, fun g hg => ?_, ?_⟩⟩
  · simp only [alg, init, Prog.wp_bind']
    refine Prog.wp_mono (fun r g' h => ?_) (wp_defaultNumpyInit hG (Cov.pinf hg fun _ => False))
    exact ⟨h.2.2.1, h.2.2.2.1.mono fun u hu => hu.resolve_left id, h.2.2.2.2⟩
  · intro s xb fxb g hI hF hc
    simp only [alg, iter, Prog.wp_bind', Prog.wp_look]
    intro v
    refine Prog.wp_mono ?_ (wp_forFin (fun k a g' => (∀ i, C.Fit g'.b (a.1.pop i) (a.1.fit i)) ∧
      Inc C a.2.1 a.2.2 g' ∧ g'.c = g.c + k) ⟨hI, ⟨hF, hc⟩, rfl⟩ ?_)
    · rintro ⟨s', xb', fxb'⟩ g' ⟨h1, h2, h3⟩
      exact ⟨h1, h2.fit, h2.eq, Cost.ok_exact h3⟩
    · rintro i ⟨s, xb, fxb⟩ g ⟨h1, h2, h3⟩
      simp only [step, Prog.wp_bind', Prog.wp_rand]
      intro r _ _
      refine (candidate_good (hent rfl) ..).wp fun y hy => ?_
      rw [Prog.wp_eval]
      refine ⟨hy, fun v hv => (accept_quiet ..).wp fun b _ => ?_⟩
      refine ⟨?_, h2.leq hv, by simp [Ghost.eval, h3, add_assoc]⟩
      cases b
      · exact fit_eval h1 v
      · exact aligned_update (fit_eval h1 v) i (.new hv)

end NiaPy.BA
