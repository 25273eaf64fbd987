import Mathlib.Tactic.Ring
import Mathlib.Tactic.FieldSimp
import Mathlib.Tactic.Positivity
import Mathlib.Tactic.Linarith
import Verif.PopTools
import Verif.Runs

/-!
# Krill herd algorithm (`niapy/algorithms/basic/kh.py`)
-/

namespace NiaPy.KH
open NiaPy
variable [Arith] {D N : ℕ}

/-- Parameters (kh.py:71-139); the weights are arrays of length `D` (`full_array`, kh.py:163-175). -/
structure Par (D : ℕ) where
  nMax : Fl
  foragingSpeed : Fl
  diffusionSpeed : Fl
  ct : Fl
  wNeighbor : Vec D
  wForaging : Vec D
  maxNeighbors : ℕ
  cr : Fl
  mr : Fl

/-- State of a run: the krill with the speeds induced by neighbours and by foraging. In the beginning the code has one number 0 for
each krill and not a vector of zeros; it is only used multiplied by a vector. -/
structure St (D N : ℕ) where
  pop : Fin N → Vec D
  fit : Fin N → Fl
  induced : Fin N → Vec D
  foraging : Fin N → Vec D

/-- `init_population` (kh.py:387-411). -/
def init (B : Box D) (N : ℕ) : Prog (Vec D) (St D N) := do
  let (pop, fit) ← defaultNumpyInit B N
  return ⟨pop, fit, fun _ _ => 0, fun _ _ => 0⟩

/-- `np.finfo(float).eps` -/
def eps : Fl := lit 1 4503599627370496

/-- `sense_range` (kh.py:177-188). -/
def senseRange (p : Par D) (pop : Fin N → Vec D) (i : Fin N) : Fl :=
  (vsum fun j => euclid (pop i) (pop j)) / Fl.ofNat (p.maxNeighbors * N)

/-- `get_neighbours` (kh.py:190-208). -/
def neighbours (p : Par D) (pop : Fin N → Vec D) (i : Fin N) : Prog (Vec D) (List (Fin N)) :=
  let l := (List.finRange N).filter fun j => decide (j ≠ i ∧ euclid (pop i) (pop j) < senseRange p pop i)
  if l.isEmpty then do
    let j ← intFin N
    return [j]
  else return l

/-- `get_x` (kh.py:210-221). -/
def getX (x y : Vec D) : Vec D := fun j => ((y j - x j) + eps) / (euclid y x + eps)

/-- `get_k` (kh.py:223-236). -/
def getK (x y b w : Fl) : Fl := ((x - y) + eps) / ((w - b) + eps)

/-- `induce_neighbors_motion` (kh.py:238-260). The sum over neighbours and coordinates is taken neighbour by neighbour. -/
def inducedMotion (p : Par D) (s : St D N) (ib iw : Fin N) (v : TaskView) (i : Fin N) : Prog (Vec D) (Vec D) := do
  let l ← neighbours p s.pop i
  let al := (l.map fun k => vsum fun j => getK (s.fit i) (s.fit k) (s.fit ib) (s.fit iw) * getX (s.pop i) (s.pop k) j).foldl (· + ·) 0
  let r ← Prog.rand
  let at' := Fl.ofNat 2 * (1 + r * Fl.ofNat (v.iters + 1) / limF v.maxIters)
  return fun j => p.nMax * (al + at') + p.wNeighbor j * s.induced i j

/-- The factor that lets foraging and diffusion fade (kh.py:281, 296). -/
def fading (v : TaskView) : Fl := 1 - Fl.ofNat (v.iters + 1) / limF v.maxIters

/-- `induce_foraging_motion` (kh.py:262-284). -/
def foragingMotion (p : Par D) (s : St D N) (food : Vec D) (foodF : Fl) (ib iw : Fin N) (v : TaskView) (i : Fin N) : Vec D := fun j =>
  let bf := if s.fit ib < s.fit i then
      Fl.ofNat 2 * fading v * getK (s.fit i) foodF (s.fit ib) (s.fit iw) * getX (s.pop i) food j
    else 0
  let bb := getK (s.fit i) (s.fit ib) (s.fit ib) (s.fit iw) * getX (s.pop i) (s.pop ib) j
  p.foragingSpeed * (bf + bb) + p.wForaging j * s.foraging i j

/-- `induce_physical_diffusion` (kh.py:286-296). -/
def diffusion (p : Par D) (v : TaskView) : Prog (Vec D) (Vec D) := do
  let u ← unifVec (fun _ => -1) (fun _ => 1)
  return fun j => p.diffusionSpeed * fading v * u j

/-- `crossover` (kh.py:310-322). -/
def crossover (x xo : Vec D) (cr : Fl) : Prog (Vec D) (Vec D) := do
  let r ← randVec D
  return fun j => if r j < cr then xo j else x j

/-- One coordinate of `mutate` (kh.py:324-336). -/
def mutate1 (x xb mr : Fl) : Prog (Vec D) Fl := do
  let r ← Prog.rand
  if r < mr then return x
  else do
    let r' ← Prog.rand
    return xb + r'

/-- `get_food_location` before repair (kh.py:352). -/
def foodPoint (s : St D N) : Vec D := fun j => (vsum fun i => s.pop i j / s.fit i) / vsum fun i => 1 / s.fit i

/-- The new herd before it is repaired (kh.py:446-453). -/
def newHerd (B : Box D) (p : Par D) (s : St D N) (food : Vec D) (foodF : Fl) (ib iw : Fin N) (v : TaskView) :
    Prog (Vec D) ((Fin N → Vec D) × (Fin N → Vec D) × (Fin N → Vec D)) := do
  let ind ← tabM N fun i => inducedMotion p s ib iw v i
  let fo := foragingMotion p s food foodF ib iw v
  let dif ← tabM N fun _ => diffusion p v
  let dt := p.ct * vsum fun j => B.hi j - B.lo j
  let h1 := fun i j => s.pop i j + dt * (ind i j + fo i j + dif i j)
  let h2 ← tabM N fun i => crossover (h1 i) (s.pop i) (p.cr * getK (s.fit i) (s.fit ib) (s.fit ib) (s.fit iw))
  let h3 ← tabM N fun i => tabM D fun j =>
    mutate1 (h2 i j) (s.pop ib j) (p.mr / (getK (s.fit i) (s.fit ib) (s.fit ib) (s.fit iw) + lit 1 (10 ^ 31)))
  return (h3, ind, fo)

/-- `run_iteration` (kh.py:413-457). -/
def iter (B : Box D) (p : Par D) (s : St D N) (xb : Vec D) (fxb : Fl) : Prog (Vec D) (St D N × Vec D × Fl) := do
  let v ← Prog.look
  let ib ← argminIdx s.fit
  let iw ← argmaxIdx s.fit
  let food ← Prog.repair (foodPoint s)
  let foodF ← Prog.eval food
  let (xb, fxb) := betterLt food foodF xb fxb
  let (herd, ind, fo) ← newHerd B p s food foodF ib iw v
  let pop ← repairRows herd
  let fit ← evalRows pop
  let b ← Prog.getBest (List.ofFn pop) (List.ofFn fit) xb fxb
  return (⟨pop, fit, ind, fo⟩, b)

/-- The krill herd algorithm with population size `N` (kh.py). -/
def alg (B : Box D) (N : ℕ) (p : Par D) : Alg (Vec D) where
  σ := St D N
  init := init B N
  pop s := List.ofFn s.pop
  fit s := List.ofFn s.fit
  iter := iter B p

variable {C : Ctx (Vec D)}

theorem neighbours_quiet (p : Par D) (pop : Fin N → Vec D) (i : Fin N) : Quiet C (neighbours p pop i) := by
  unfold neighbours
  yields

theorem newHerd_quiet (B : Box D) (p : Par D) (s : St D N) (food : Vec D) (foodF : Fl) (ib iw : Fin N) (v : TaskView) :
    Quiet C (newHerd B p s food foodF ib iw v) := by
  unfold newHerd
  refine .bindT (.tabMT fun i => ?_) fun _ => .bindT (.tabMT fun i => ?_) fun _ => .bindT (.tabMT fun i => ?_) fun _ =>
    .bindT (.tabMT fun i => .tabMT fun j => ?_) fun _ => .pure' trivial
  · unfold inducedMotion
    exact .bindT (neighbours_quiet ..) fun _ => by yields
  · unfold diffusion; yields
  · unfold crossover; yields
  · unfold mutate1; yields

/-- The obligations of the krill herd algorithm: `N` evaluations in the beginning and `N + 1` per iteration. -/
theorem verified (B : Box D) (N : ℕ) (p : Par D) : Verified (alg B N p) B.Mem true true (.exact N (N + 1)) := by
  refine ⟨fun C s b => ∀ i, C.Fit b (s.pop i) (s.fit i), fun C hG hent _ => ⟨fun s b h => forall₂_ofFn h, fun g hg => ?_, ?_⟩⟩
  · simp only [alg, init, Prog.wp_bind']
    exact wp_initArr hG hg fun r g' _ _ h3 h4 h5 => ⟨h3, h4, h5⟩
  · intro s xb fxb g hI hF hc
    have hinc : Inc C xb fxb g := ⟨hF, hc⟩
    simp only [alg, iter, Prog.wp_bind', Prog.wp_look]
    intro v
    refine wp_argminIdx fun ib _ => wp_argmaxIdx fun iw _ => Yields.repair.wp fun food hfood => ?_
    rw [Prog.wp_eval]
    refine ⟨hfood, fun foodF hff => ?_⟩
    have hinc' := hinc.betterLt hff
    refine (newHerd_quiet ..).wp fun h _ => ?_
    refine (Yields.repairRows (Or.inl rfl)).wp fun pop hpop => ?_
    refine wp_evalRows hpop hinc'.cov fun fit g1 _ hb1 hf1 hc1 hn1 => ?_
    exact wp_getBest_arr hf1 (hinc'.toFit.mono hb1) hc1 fun b1 hi1 => ⟨hf1, hi1.fit, hi1.eq, Cost.ok_exact (by rw [hn1]; simp only [Ghost.eval]; omega)⟩

example : ∃ hist w, (@alg Ex.arith 1 (Ex.box 1) 3 ⟨lit 1 100, lit 2 100, lit 2 1000, lit 93 100, fun _ => lit 42 100, fun _ => lit 38 100, 5, lit 1 5, lit 1 20⟩).Trace
    Ex.env2 1 hist w ∧ hist.length = 3 := by
  letI := Ex.arith
  exact (verified (Ex.box 1) 3 ⟨lit 1 100, lit 2 100, lit 2 1000, lit 93 100, fun _ => lit 42 100, fun _ => lit 38 100, 5, lit 1 5, lit 1 20⟩).toIf.exists_trace
    Ex.env2 (metBy_none _ _) (fuel := 5) (by decide +kernel)

/-! ## C92: fading of foraging and diffusion -/

omit [Arith] in
/-- **C92.** In iteration `t` of `T` (counted from 0) the factor of foraging and diffusion is `1 - (t + 1) / T`: at least 0, below 1, falling, and 0 in the
last one. -/
theorem C92_kh (fn : Fn → Fl → Fl) (v : TaskView) (T : ℕ) (hT : v.maxIters = some T) (hlt : v.iters < T) :
    letI := exactArith fn
    fading v = .fin (1 - (v.iters + 1) / T) ∧ .fin 0 ≤ fading v ∧ fading v < .fin 1 ∧ (v.iters + 1 = T → fading v = .fin 0) ∧
      ∀ v' : TaskView, v'.maxIters = some T → v.iters < v'.iters → fading v' < fading v := by
  have hpos : 0 < T := by omega
  have hT' : (0 : ℚ) < T := by exact_mod_cast hpos
  have key : ∀ u : TaskView, u.maxIters = some T → @fading (exactArith fn) u = .fin (1 - (u.iters + 1) / T) := fun u hu => by
    unfold fading
    rw [hu]
    simp only [Exact.ofNat_fin, Exact.one_fin, Exact.div_some fn _ hpos, Exact.sub_fin, Fl.fin.injEq]
    push_cast
    ring
  refine ⟨key v hT, ?_, ?_, fun h => ?_, fun v' h' hlt' => ?_⟩
  · rw [key v hT, Fl.fin_le_fin]
    have : ((v.iters : ℚ) + 1) / T ≤ 1 := (div_le_one hT').2 (by exact_mod_cast hlt)
    linarith
  · rw [key v hT, Fl.fin_lt_fin]
    have : (0 : ℚ) < ((v.iters : ℚ) + 1) / T := by positivity
    linarith
  · have h1 : ((v.iters : ℚ) + 1) / T = 1 := by rw [← h]; push_cast; exact div_self (by positivity)
    rw [key v hT, h1, sub_self]
  · rw [key v hT, key v' h', Fl.fin_lt_fin]
    have : ((v.iters : ℚ) + 1) / T < (v'.iters + 1) / T := (div_lt_div_iff_of_pos_right hT').2 (by exact_mod_cast Nat.succ_lt_succ hlt')
    linarith

omit [Arith] in
/-- **C92 fails without that limit**: nothing fades. -/
theorem C92_kh_false (fn : Fn → Fl → Fl) (v : TaskView) (hT : v.maxIters = none) : letI := exactArith fn; fading v = .fin 1 := by
  unfold fading
  rw [hT]
  simp only [Exact.ofNat_fin, Exact.one_fin, Exact.div_none, Exact.sub_fin, sub_zero]

example : letI := Ex.arith; fading ⟨4, 30, some 10, none, false⟩ = .fin (1 / 2) := by decide +kernel

end NiaPy.KH
