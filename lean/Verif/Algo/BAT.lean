import Verif.Algo.BA
import Verif.Algo.DE
import Verif.Post
import Verif.Runs

/-!
# Variants of the bat algorithm

`AdaptiveBatAlgorithm` and `SelfAdaptiveBatAlgorithm` (`niapy/algorithms/modified/saba.py`), `HybridBatAlgorithm`
(`modified/hba.py`), `HybridSelfAdaptiveBatAlgorithm` (`modified/hsaba.py`), `ParameterFreeBatAlgorithm` (`modified/plba.py`).
-/

namespace NiaPy.BAT
open NiaPy
variable [Arith] {D N : ℕ}

/-- Evaluation and acceptance of a candidate, the same in all variants up to the test `ok` of the random number
(saba.py:210-212, 389-391, plba.py:139-141, ba.py:201-203). The number is drawn only if the candidate is not worse (`and` is
lazy). Returned are population, fitness values and the fitness of the candidate. -/
def judge (pop : Fin N → Vec D) (fit : Fin N → Fl) (i : Fin N) (ok : Fl → Bool) (y : Vec D) :
    Prog (Vec D) ((Fin N → Vec D) × (Fin N → Fl) × Fl) := do
  let v ← Prog.eval y
  let accept ← (if v ≤ fit i then do
      let r ← Prog.rand
      return ok r
    else return false)
  return if accept = true then (Function.update pop i y, Function.update fit i v, v) else (pop, fit, v)

/-! ### Adaptive and self-adaptive bat algorithm -/

/-- Parameters of `AdaptiveBatAlgorithm` (saba.py:58-81). -/
structure Par where
  startingLoudness : Fl
  epsilon : Fl
  alpha : Fl
  pulseRate : Fl
  minFrequency : Fl
  maxFrequency : Fl

/-- State: population, fitness values, `velocities`, `loudness`, `pulse_rates` (the last one is not used by
`AdaptiveBatAlgorithm`; saba.py:147-151, 333-337). -/
structure St (D N : ℕ) where
  pop : Fin N → Vec D
  fit : Fin N → Fl
  vel : Fin N → Vec D
  loud : Fin N → Fl
  pulse : Fin N → Fl

/-- `init_population` (saba.py:129-151, 333-337). -/
def init (B : Box D) (N : ℕ) (p : Par) : Prog (Vec D) (St D N) := do
  let (pop, fit) ← defaultNumpyInit B N
  return ⟨pop, fit, fun _ _ => 0, fun _ => p.startingLoudness, fun _ => p.pulseRate⟩

/-- A local search: best solution, loudness, index and population to a candidate. -/
abbrev Local (D N : ℕ) := Vec D → Fl → Fin N → (Fin N → Vec D) → Prog (Vec D) (Vec D)

/-- `local_search` (saba.py:153-165). -/
def localSearch (p : Par) : Local D N := fun best loudness _ _ => do
  let z ← normVec D 0 1
  Prog.repair fun j => best j + p.epsilon * loudness * z j

/-- `update_loudness` (saba.py:167-178). -/
def updateLoudness (p : Par) (l : Fl) : Fl := if lit 1 10000000000000 < l * p.alpha then l * p.alpha else p.startingLoudness

/-- The candidate of a bat (saba.py:206-209, 385-388). -/
def candidate (ls : Local D N) (best : Vec D) (pop : Fin N → Vec D) (i : Fin N) (vi : Vec D) (loudness pulse : Fl) :
    Prog (Vec D) (Vec D) := do
  let r ← Prog.rand
  if pulse < r then ls best loudness i pop
  else Prog.repair fun j => pop i j + vi j

/-- Body of the loop over the bats (saba.py:203-214). -/
def step (p : Par) (i : Fin N) (a : St D N × Vec D × Fl) : Prog (Vec D) (St D N × Vec D × Fl) := do
  let (s, xb, fxb) := a
  let r ← Prog.rand
  let frequency := p.minFrequency + (p.maxFrequency - p.minFrequency) * r
  let vi : Vec D := fun j => s.vel i j + (s.pop i j - xb j) * frequency
  let y ← candidate (localSearch p) xb s.pop i vi (s.loud i) p.pulseRate
  let (pop, fit, v) ← judge s.pop s.fit i (fun r => decide (r < s.loud i)) y
  let loud := if v ≤ fxb then Function.update s.loud i (updateLoudness p (s.loud i)) else s.loud
  return (⟨pop, fit, Function.update s.vel i vi, loud, s.pulse⟩, getBest1 y v xb fxb)

/-- `run_iteration` (saba.py:180-215). -/
def iter (p : Par) (s : St D N) (xb : Vec D) (fxb : Fl) : Prog (Vec D) (St D N × Vec D × Fl) := forFin N (step p) (s, xb, fxb)

/-- `AdaptiveBatAlgorithm` with population size `N` (saba.py:15-215). -/
def alg (B : Box D) (N : ℕ) (p : Par) : Alg (Vec D) where
  σ := St D N
  init := init B N p
  pop s := List.ofFn s.pop
  fit s := List.ofFn s.fit
  iter := iter p

/-- The parameters of self-adaptation (saba.py:265-287). -/
structure Self where
  minLoudness : Fl
  maxLoudness : Fl
  minPulseRate : Fl
  maxPulseRate : Fl
  tao1 : Fl
  tao2 : Fl

/-- One half of `self_adaptation`: a new value with probability `tao` (saba.py:352-354; the condition is evaluated first). -/
def adapt (lo hi tao old : Fl) : Prog (Vec D) Fl := do
  let r ← Prog.rand
  if r < tao then do
    let r ← Prog.rand
    return lo + r * (hi - lo)
  else return old

/-- Body of the loop over the bats of the self-adaptive variant (saba.py:381-393); the hybrid one has another local search. -/
def stepS (p : Par) (q : Self) (ls : Local D N) (i : Fin N) (a : St D N × Vec D × Fl) : Prog (Vec D) (St D N × Vec D × Fl) := do
  let (s, xb, fxb) := a
  let l ← adapt q.minLoudness q.maxLoudness q.tao1 (s.loud i)
  let pr ← adapt q.minPulseRate q.maxPulseRate q.tao2 (s.pulse i)
  let r ← Prog.rand
  let frequency := p.minFrequency + (p.maxFrequency - p.minFrequency) * r
  let vi : Vec D := fun j => s.vel i j + (s.pop i j - xb j) * frequency
  let y ← candidate ls xb s.pop i vi l pr
  let (pop, fit, v) ← judge s.pop s.fit i (fun r => decide (r < (q.minLoudness - l) / p.startingLoudness)) y
  return (⟨pop, fit, Function.update s.vel i vi, Function.update s.loud i l, Function.update s.pulse i pr⟩, getBest1 y v xb fxb)

/-- `run_iteration` of the self-adaptive variant (saba.py:356-394). -/
def iterS (p : Par) (q : Self) (ls : Local D N) (s : St D N) (xb : Vec D) (fxb : Fl) : Prog (Vec D) (St D N × Vec D × Fl) :=
  forFin N (stepS p q ls) (s, xb, fxb)

/-- A self-adaptive bat algorithm with a given local search. -/
def mkS (B : Box D) (N : ℕ) (p : Par) (q : Self) (ls : Local D N) : Alg (Vec D) where
  σ := St D N
  init := init B N p
  pop s := List.ofFn s.pop
  fit s := List.ofFn s.fit
  iter := iterS p q ls

/-- `SelfAdaptiveBatAlgorithm` (saba.py:218-394). -/
def algS (B : Box D) (N : ℕ) (p : Par) (q : Self) : Alg (Vec D) := mkS B N p q (localSearch p)

/-- `local_search` of `HybridSelfAdaptiveBatAlgorithm` (hsaba.py:112-126): the best solution is passed by name, which every
strategy accepts. -/
def localS (strat : DE.Strategy D) (f cr : Fl) : Local D N := fun best _ i pop => do
  let y ← strat pop i f cr best
  Prog.repair y

/-- `HybridSelfAdaptiveBatAlgorithm` (hsaba.py). -/
def algHS (B : Box D) (N : ℕ) (p : Par) (q : Self) (strat : DE.Strategy D) (f cr : Fl) : Alg (Vec D) := mkS B N p q (localS strat f cr)

/-! ### Hybrid bat algorithm -/

/-- A strategy as a Python function: `best` tells whether it has a sixth positional parameter (`x_b`); `cross_best1`,
`cross_best2` and `cross_curr2best1` have, `cross_rand1`, `cross_rand2` and `cross_curr2rand1` have not (de.py:20, 55, 91, 127,
162, 196). -/
structure Callee (D : ℕ) where
  run : DE.Strategy D
  best : Bool

/-- `local_search` of `HybridBatAlgorithm` (hba.py:106-119): the best solution is the sixth positional argument. -/
def localH (c : Callee D) (f cr : Fl) (best : Vec D) (i : Fin N) (pop : Fin N → Vec D) : Prog (Vec D) (Vec D) := do
  let y ← (if c.best then c.run pop i f cr best else Prog.throw .typeError)
  Prog.repair y

/-- The candidate of bat `i` (ba.py:197-200 with the local search of the hybrid). -/
def candidateH (c : Callee D) (f cr : Fl) (best : Vec D) (pop : Fin N → Vec D) (i : Fin N) (vi : Vec D) (pulse : Fl) : Prog (Vec D) (Vec D) := do
  let r ← Prog.rand
  if r < pulse then localH c f cr best i pop
  else Prog.repair fun j => pop i j + vi j

/-- Body of the loop over the bats (ba.py:194-205). -/
def stepH (p : BA.Par) (c : Callee D) (f cr loudness pulse : Fl) (i : Fin N) (a : BA.St D N × Vec D × Fl) :
    Prog (Vec D) (BA.St D N × Vec D × Fl) := do
  let (s, xb, fxb) := a
  let r ← Prog.rand
  let frequency := p.minFrequency + (p.maxFrequency - p.minFrequency) * r
  let vi : Vec D := fun j => s.vel i j + (s.pop i j - xb j) * frequency
  let y ← candidateH c f cr xb s.pop i vi pulse
  let (pop, fit, v) ← judge s.pop s.fit i (fun r => decide (loudness < r)) y
  return (⟨pop, fit, Function.update s.vel i vi, s.loud⟩, getBest1 y v xb fxb)

/-- `run_iteration` (ba.py:167-206). -/
def iterH (p : BA.Par) (c : Callee D) (f cr : Fl) (s : BA.St D N) (xb : Vec D) (fxb : Fl) : Prog (Vec D) (BA.St D N × Vec D × Fl) := do
  let loudness := s.loud * p.alpha
  let v ← Prog.look
  let pulse := p.pulseRate * (1 - Arith.fn .exp (-p.gamma * Fl.ofNat v.iters))
  let (s, xb, fxb) ← forFin N (stepH p c f cr loudness pulse) (s, xb, fxb)
  return ({ s with loud := loudness }, xb, fxb)

/-- `HybridBatAlgorithm` (hba.py). -/
def algH (B : Box D) (N : ℕ) (p : BA.Par) (c : Callee D) (f cr : Fl) : Alg (Vec D) where
  σ := BA.St D N
  init := BA.init B p
  pop s := List.ofFn s.pop
  fit s := List.ofFn s.fit
  iter := iterH p c f cr

/-! ### Parameter-free bat algorithm -/

/-- State of the parameter-free variant (plba.py:91-94). -/
structure StP (D N : ℕ) where
  pop : Fin N → Vec D
  fit : Fin N → Fl
  vel : Fin N → Vec D

/-- `init_population` (plba.py:74-94). -/
def initP (B : Box D) (N : ℕ) : Prog (Vec D) (StP D N) := do
  let (pop, fit) ← defaultNumpyInit B N
  return ⟨pop, fit, fun _ _ => 0⟩

/-- The candidate of a bat (plba.py:135-138); `local_search` repairs without a generator (plba.py:107). -/
def candidateP (best xi vi : Vec D) : Prog (Vec D) (Vec D) := do
  let r ← Prog.rand
  if lit 1 10 < r then do
    let z ← normVec D 0 1
    Prog.repair (fun j => best j + lit 1 1000 * z j) false
  else Prog.repair fun j => xi j + vi j

/-- The width of the first coordinate; `IndexError` without coordinates (plba.py:133). -/
def width (B : Box D) : Prog (Vec D) Fl := if h : 0 < D then return B.hi ⟨0, h⟩ - B.lo ⟨0, h⟩ else Prog.throw .indexError

/-- Body of the loop over the bats (plba.py:132-143). -/
def stepP (B : Box D) (i : Fin N) (a : StP D N × Vec D × Fl) : Prog (Vec D) (StP D N × Vec D × Fl) := do
  let (s, xb, fxb) := a
  let w ← width B
  let z ← Prog.norm 0 1
  let frequency := w / Fl.ofNat N * z
  let vi : Vec D := fun j => s.vel i j + (s.pop i j - xb j) * frequency
  let y ← candidateP xb (s.pop i) vi
  let (pop, fit, v) ← judge s.pop s.fit i (fun r => decide (r < lit 9 10)) y
  return (⟨pop, fit, Function.update s.vel i vi⟩, getBest1 y v xb fxb)

/-- `run_iteration` (plba.py:109-144). -/
def iterP (B : Box D) (s : StP D N) (xb : Vec D) (fxb : Fl) : Prog (Vec D) (StP D N × Vec D × Fl) := forFin N (stepP B) (s, xb, fxb)

/-- `ParameterFreeBatAlgorithm`; the code fixes `N = 80` (plba.py:59). -/
def algP (B : Box D) (N : ℕ) : Alg (Vec D) where
  σ := StP D N
  init := initP B N
  pop s := List.ofFn s.pop
  fit s := List.ofFn s.fit
  iter := iterP B

/-! ### Obligations -/

variable {C : Ctx (Vec D)} {g : Ghost (Vec D)}

theorem wp_judge {pop : Fin N → Vec D} {fit : Fin N → Fl} {i : Fin N} {ok : Fl → Bool} {y : Vec D}
    {Q : (Fin N → Vec D) × (Fin N → Fl) × Fl → Ghost (Vec D) → Prop} (hy : C.G y) (ha : ∀ i, C.Fit g.b (pop i) (fit i))
    (h : ∀ pop' fit' v, (∀ i, C.Fit (g.eval v).b (pop' i) (fit' i)) → C.F y v → Q (pop', fit', v) (g.eval v)) :
    (judge pop fit i ok y).wp C Q g := by
  simp only [judge, Prog.wp_bind', Prog.wp_eval]
  refine ⟨hy, fun v hv => Yields.wp (P := fun _ => True) (by yields) fun b _ => ?_⟩
  cases b
  · exact h _ _ v (fit_eval ha v) hv
  · exact h _ _ v (aligned_update (fit_eval ha v) i (.new hv)) hv

/-- A local search that makes a repaired point. -/
def LocalOK (ls : Local D N) : Prop := ∀ (C : Ctx (Vec D)) best l i pop, Yields C (ls best l i pop) C.G

theorem localSearch_ok (p : Par) : LocalOK (localSearch p : Local D N) := fun C best l i pop => by unfold localSearch; yields

theorem localS_ok {strat : DE.Strategy D} (hs : DE.QuietStrategy strat) (f cr : Fl) : LocalOK (localS strat f cr : Local D N) :=
  fun C best l i pop => .bind' (hs C pop i f cr best) fun y _ => by yields

theorem candidate_good {ls : Local D N} (hl : LocalOK ls) (best : Vec D) (pop : Fin N → Vec D) (i : Fin N) (vi : Vec D) (l pulse : Fl) :
    Yields C (candidate ls best pop i vi l pulse) C.G := by
  unfold candidate
  refine .bind' (P := fun _ => True) (by yields) fun r _ => .ite (fun _ => hl ..) fun _ => by yields

theorem adapt_quiet (lo hi tao old : Fl) : Quiet C (adapt lo hi tao old : Prog (Vec D) Fl) := by
  unfold adapt
  yields

theorem wp_init {B : Box D} {p : Par} (hG : ∀ x, B.Mem x → C.G x) (hg : g.b = .pinf) :
    (init B N p).wp C (fun s g' => (∀ i, C.Fit g'.b (s.pop i) (s.fit i)) ∧ Cov C (· ∈ List.ofFn s.fit) g' ∧ g'.c = g.c + N) g := by
  simp only [init, Prog.wp_bind']
  refine Prog.wp_mono (fun r g' h => ?_) (wp_defaultNumpyInit hG (Cov.pinf hg fun _ => False))
  exact ⟨h.2.2.1, h.2.2.2.1.mono fun u hu => hu.resolve_left id, h.2.2.2.2⟩

/-- The obligations of the adaptive bat algorithm. -/
theorem verified (B : Box D) (N : ℕ) (p : Par) : Verified (alg B N p) B.Mem true true (.exact N N) := by
  refine ⟨fun C s b => ∀ i, C.Fit b (s.pop i) (s.fit i), fun C hG hent _ => ⟨fun s b h => forall₂_ofFn h, fun g hg => wp_init hG hg, ?_⟩⟩
  intro s xb fxb g hI hF hc
  refine Prog.wp_mono ?_ (wp_forFin (fun k (a : St D N × Vec D × Fl) g' => (∀ i, C.Fit g'.b (a.1.pop i) (a.1.fit i)) ∧
    Inc C a.2.1 a.2.2 g' ∧ g'.c = g.c + k) ⟨hI, ⟨hF, hc⟩, rfl⟩ ?_)
  · rintro ⟨s', xb', fxb'⟩ g' ⟨h1, h2, h3⟩
    exact ⟨h1, h2.fit, h2.eq, Cost.ok_exact h3⟩
  · rintro i ⟨s, xb, fxb⟩ g ⟨h1, h2, h3⟩
    simp only [step, Prog.wp_bind', Prog.wp_rand]
    refine fun r _ _ => (candidate_good (localSearch_ok p) ..).wp fun y hy => wp_judge hy h1 fun pop' fit' v h4 hv => ?_
    exact ⟨h4, h2.leq hv, by simp [Ghost.eval, h3, add_assoc]⟩

/-- The obligations of the self-adaptive bat algorithms. -/
theorem verifiedMk (B : Box D) (N : ℕ) (p : Par) (q : Self) {ls : Local D N} (hl : LocalOK ls) :
    Verified (mkS B N p q ls) B.Mem true true (.exact N N) := by
  refine ⟨fun C s b => ∀ i, C.Fit b (s.pop i) (s.fit i), fun C hG hent _ => ⟨fun s b h => forall₂_ofFn h, fun g hg => wp_init hG hg, ?_⟩⟩
  intro s xb fxb g hI hF hc
  refine Prog.wp_mono ?_ (wp_forFin (fun k (a : St D N × Vec D × Fl) g' => (∀ i, C.Fit g'.b (a.1.pop i) (a.1.fit i)) ∧
    Inc C a.2.1 a.2.2 g' ∧ g'.c = g.c + k) ⟨hI, ⟨hF, hc⟩, rfl⟩ ?_)
  · rintro ⟨s', xb', fxb'⟩ g' ⟨h1, h2, h3⟩
    exact ⟨h1, h2.fit, h2.eq, Cost.ok_exact h3⟩
  · rintro i ⟨s, xb, fxb⟩ g ⟨h1, h2, h3⟩
    simp only [stepS, Prog.wp_bind']
    refine (adapt_quiet ..).wp fun l _ => (adapt_quiet ..).wp fun pr _ => ?_
    rw [Prog.wp_rand]
    refine fun r _ _ => (candidate_good hl ..).wp fun y hy => wp_judge hy h1 fun pop' fit' v h4 hv => ?_
    exact ⟨h4, h2.leq hv, by simp [Ghost.eval, h3, add_assoc]⟩

theorem verifiedS (B : Box D) (N : ℕ) (p : Par) (q : Self) : Verified (algS B N p q) B.Mem true true (.exact N N) :=
  verifiedMk B N p q (localSearch_ok p)

theorem verifiedHS (B : Box D) (N : ℕ) (p : Par) (q : Self) {strat : DE.Strategy D} (hs : DE.QuietStrategy strat) (f cr : Fl) :
    Verified (algHS B N p q strat f cr) B.Mem true true (.exact N N) := verifiedMk B N p q (localS_ok hs f cr)

theorem candidateH_good {c : Callee D} (hs : DE.QuietStrategy c.run) (f cr : Fl) (best : Vec D) (pop : Fin N → Vec D) (i : Fin N)
    (vi : Vec D) (pulse : Fl) : Yields C (candidateH c f cr best pop i vi pulse) C.G := by
  unfold candidateH localH
  refine .bind' (P := fun _ => True) (by yields) fun r _ => .ite (fun _ => ?_) fun _ => by yields
  exact .bind' (P := fun _ => True) (.ite (fun _ => hs C pop i f cr best) fun _ => .throw nofun) fun y _ => by yields

/-- The obligations of the hybrid bat algorithm; other than the bat algorithm it repairs with its generator. -/
theorem verifiedH (B : Box D) (N : ℕ) (p : BA.Par) {c : Callee D} (hs : DE.QuietStrategy c.run) (f cr : Fl) :
    Verified (algH B N p c f cr) B.Mem true true (.exact N N) := by
  refine ⟨fun C s b => ∀ i, C.Fit b (s.pop i) (s.fit i), fun C hG hent _ => ⟨fun s b h => forall₂_ofFn h, fun g hg => ?_, ?_⟩⟩
  · simp only [algH, BA.init, Prog.wp_bind']
    refine Prog.wp_mono (fun r g' h => ?_) (wp_defaultNumpyInit hG (Cov.pinf hg fun _ => False))
    exact ⟨h.2.2.1, h.2.2.2.1.mono fun u hu => hu.resolve_left id, h.2.2.2.2⟩
  · intro s xb fxb g hI hF hc
    simp only [algH, iterH, Prog.wp_bind', Prog.wp_look]
    intro v
    refine Prog.wp_mono ?_ (wp_forFin (fun k (a : BA.St D N × Vec D × Fl) g' => (∀ i, C.Fit g'.b (a.1.pop i) (a.1.fit i)) ∧
      Inc C a.2.1 a.2.2 g' ∧ g'.c = g.c + k) ⟨hI, ⟨hF, hc⟩, rfl⟩ ?_)
    · rintro ⟨s', xb', fxb'⟩ g' ⟨h1, h2, h3⟩
      exact ⟨h1, h2.fit, h2.eq, Cost.ok_exact h3⟩
    · rintro i ⟨s, xb, fxb⟩ g ⟨h1, h2, h3⟩
      simp only [stepH, Prog.wp_bind', Prog.wp_rand]
      refine fun r _ _ => (candidateH_good hs ..).wp fun y hy => wp_judge hy h1 fun pop' fit' v h4 hv => ?_
      exact ⟨h4, h2.leq hv, by simp [Ghost.eval, h3, add_assoc]⟩

theorem candidateP_good (h : C.ent) (best xi vi : Vec D) : Yields C (candidateP best xi vi) C.G := by
  unfold candidateP
  yields

/-- The obligations of the parameter-free bat algorithm. -/
theorem verifiedP (B : Box D) (N : ℕ) : Verified (algP B N) B.Mem false true (.exact N N) := by
  refine ⟨fun C s b => ∀ i, C.Fit b (s.pop i) (s.fit i), fun C hG hent _ => ⟨fun s b h => forall₂_ofFn h, fun g hg => ?_, ?_⟩⟩
  · simp only [algP, initP, Prog.wp_bind']
    refine Prog.wp_mono (fun r g' h => ?_) (wp_defaultNumpyInit hG (Cov.pinf hg fun _ => False))
    exact ⟨h.2.2.1, h.2.2.2.1.mono fun u hu => hu.resolve_left id, h.2.2.2.2⟩
  · intro s xb fxb g hI hF hc
    refine Prog.wp_mono ?_ (wp_forFin (fun k (a : StP D N × Vec D × Fl) g' => (∀ i, C.Fit g'.b (a.1.pop i) (a.1.fit i)) ∧
      Inc C a.2.1 a.2.2 g' ∧ g'.c = g.c + k) ⟨hI, ⟨hF, hc⟩, rfl⟩ ?_)
    · rintro ⟨s', xb', fxb'⟩ g' ⟨h1, h2, h3⟩
      exact ⟨h1, h2.fit, h2.eq, Cost.ok_exact h3⟩
    · rintro i ⟨s, xb, fxb⟩ g ⟨h1, h2, h3⟩
      simp only [stepP, Prog.wp_bind']
      refine Yields.wp (P := fun _ => True) (by unfold width; split <;> yields) fun w _ => ?_
      rw [Prog.wp_norm]
      refine fun z => (candidateP_good (hent rfl) ..).wp fun y hy => wp_judge hy h1 fun pop' fit' v h4 hv => ?_
      exact ⟨h4, h2.leq hv, by simp [Ghost.eval, h3, add_assoc]⟩

/-! ### C62: adapted bats never move again -/

/-- What is needed of parameters and rounding: a new loudness is at least `min_loudness`, and from then on the threshold
`(min_loudness - loudness) / starting_loudness` is not positive. -/
structure Freezes (p : Par) (q : Self) : Prop where
  new : ∀ r : Fl, Fl.fin 0 ≤ r → r ≤ Fl.belowOne → q.minLoudness ≤ q.minLoudness + r * (q.maxLoudness - q.minLoudness)
  never : ∀ l r : Fl, q.minLoudness ≤ l → Fl.fin 0 ≤ r → ¬ r < (q.minLoudness - l) / p.startingLoudness

theorem adapt_min {q : Self} {p : Par} (hq : Freezes p q) (old : Fl) :
    Yields C (adapt q.minLoudness q.maxLoudness q.tao1 old : Prog (Vec D) Fl) fun l => q.minLoudness ≤ old → q.minLoudness ≤ l := by
  refine ⟨fun g => ?_⟩
  simp only [adapt, Prog.wp_bind', Prog.wp_rand]
  intro r _ _
  split
  · simp only [Prog.wp_bind', Prog.wp_rand]
    exact fun r h0 h1 => ⟨fun _ => hq.new r h0 h1, rfl⟩
  · exact ⟨id, rfl⟩

/-- What `judge` does: nothing, or replace one bat. -/
theorem judge_any (pop : Fin N → Vec D) (fit : Fin N → Fl) (i : Fin N) (ok : Fl → Bool) (y : Vec D) {g : Ghost (Vec D)}
    {Q : (Fin N → Vec D) × (Fin N → Fl) × Fl → Ghost (Vec D) → Prop} 
    (h1 : ∀ v g, Q (pop, fit, v) g) (h2 : ∀ r v g, Fl.fin 0 ≤ r → ok r = true → Q (Function.update pop i y, Function.update fit i v, v) g) :
    (judge pop fit i ok y).wp Ctx.any Q g := by
  simp only [judge, Prog.wp_bind', Prog.wp_eval]
  refine ⟨trivial, fun v _ => ?_⟩
  by_cases hv : v ≤ fit i
  · simp only [hv, if_true, Prog.wp_bind', Prog.wp_rand]
    intro r h0 _
    simp only [Prog.wp_pure']
    by_cases ho : ok r = true
    · simpa [ho] using h2 r v _ h0 ho
    · simpa [ho] using h1 v _
  · simpa [hv] using h1 v _

/-- C62 is false, in every execution of the self-adaptive and the hybrid self-adaptive bat algorithm: once the loudness of a
bat is at least `min_loudness` (it is as soon as it has been adapted) the bat never changes again. -/
theorem C62_saba_false (B : Box D) (N : ℕ) {p : Par} {q : Self} (hq : Freezes p q) (ls : Local D N) (env : Env (Vec D)) {ncb : ℕ}
    {hist : List (St D N × Vec D × Fl)} {w : World (Vec D)} (ht : (mkS B N p q ls).Trace env ncb hist w) :
    hist.Pairwise fun r' r => ∀ i, q.minLoudness ≤ r.1.loud i →
      q.minLoudness ≤ r'.1.loud i ∧ r'.1.pop i = r.1.pop i ∧ r'.1.fit i = r.1.fit i := by
  let R : St D N × Vec D × Fl → St D N × Vec D × Fl → Prop := fun r' r => ∀ i, q.minLoudness ≤ r.1.loud i →
      q.minLoudness ≤ r'.1.loud i ∧ r'.1.pop i = r.1.pop i ∧ r'.1.fit i = r.1.fit i
  haveI : Trans R R R := ⟨fun {a b c} h1 h2 i hi => by
    obtain ⟨h3, h4, h5⟩ := h2 i hi
    obtain ⟨h6, h7, h8⟩ := h1 i h3
    exact ⟨h6, h7.trans h4, h8.trans h5⟩⟩
  refine (List.isChain_iff_pairwise (R := R)).1 (Alg.Trace.chain (A := mkS B N p q ls) ht fun r g => ?_)
  change (iterS p q ls r.1 r.2.1 r.2.2).wp Ctx.any _ g
  refine wp_forFin (fun _ (a : St D N × Vec D × Fl) _ => R a r) (fun i hi => ⟨hi, rfl, rfl⟩) ?_
  rintro i ⟨s, xb, fxb⟩ g hs
  simp only [stepS, Prog.wp_bind']
  refine (adapt_min hq (s.loud i)).wp fun l hl => Prog.wp_any _ (fun pr g => ?_) _
  rw [Prog.wp_rand]
  refine fun r1 _ _ => Prog.wp_any _ (fun y g => ?_) _
  refine judge_any _ _ _ _ _ (fun v g j hj => ?_) fun r2 v g h0 ho j hj => ?_
  · obtain ⟨h1, h2, h3⟩ := hs j hj
    refine ⟨?_, h2, h3⟩
    by_cases hij : j = i
    · subst hij; simpa using hl h1
    · simpa [hij] using h1
  · obtain ⟨h1, h2, h3⟩ := hs j hj
    by_cases hij : j = i
    · subst hij
      exact absurd (of_decide_eq_true ho) (hq.never l r2 (hl h1) h0)
    · simpa [hij] using ⟨h1, h2, h3⟩

omit [Arith] in
/-- `Freezes` holds without rounding if `min_loudness <= max_loudness` and `starting_loudness > 0`; the defaults (saba.py:58, 265)
are such. -/
theorem freezes_exact (fn : Fn → Fl → Fl) {p : Par} {q : Self} {lo hi st : ℚ} (h1 : q.minLoudness = .fin lo) (h2 : q.maxLoudness = .fin hi)
    (h3 : p.startingLoudness = .fin st) (hle : lo ≤ hi) (hst : 0 < st) : @Freezes (exactArith fn) p q := by
  refine @Freezes.mk (exactArith fn) p q (fun r h0 hr => ?_) fun l r hl h0 => ?_
  · replace hr := Fl.lt_one hr
    rw [h1, h2]
    cases r with
    | fin r =>
      change Fl.fin lo ≤ Fl.fin (lo + r * (hi + -lo))
      rw [Fl.fin_le_fin] at h0 ⊢
      nlinarith
    | _ => simp at h0 hr
  · rw [h1] at hl ⊢
    rw [h3]
    cases l with
    | fin l =>
      change ¬ r < Fl.divX (Fl.fin (lo + -l)) (Fl.fin st)
      have : Fl.divX (Fl.fin (lo + -l)) (Fl.fin st) = .fin ((lo + -l) / st) := by simp [Fl.divX, hst.ne']
      rw [this]
      rw [Fl.fin_le_fin] at hl
      have h5 : (lo + -l) / st ≤ 0 := div_nonpos_of_nonpos_of_nonneg (by linarith) hst.le
      exact fun h => Fl.not_lt_of_le (Fl.le_trans ((Fl.fin_le_fin _ _).2 h5) h0) h
    | pinf =>
      change ¬ r < Fl.divX Fl.ninf (Fl.fin st)
      have : Fl.divX Fl.ninf (Fl.fin st) = .ninf := by simp [Fl.divX, not_lt.2 hst.le]
      rw [this]
      cases r <;> simp
    | nan => simp at hl
    | ninf => simp at hl

/-! ### C63: strategies of the hybrid bat algorithm -/

omit [Arith] in
/-- C63 is false: with a strategy that has no parameter `x_b` the local search always raises `TypeError`. -/
theorem C63_hba_false (env : Env (Vec D)) (w : World (Vec D)) (strat : DE.Strategy D) (f cr : Fl) (best : Vec D) (i : Fin N)
    (pop : Fin N → Vec D) : (localH ⟨strat, false⟩ f cr best i pop).run env w = (.error .typeError, w) := rfl

/-- Default parameters (saba.py:58, 265). -/
def Ex.par : Par := ⟨.fin (1 / 2), .fin (1 / 1000), .fin 1, .fin (1 / 2), .fin 0, .fin 2⟩
@[inherit_doc Ex.par] def Ex.self : Self := ⟨.fin (9 / 10), .fin 1, .fin (1 / 1000), .fin (1 / 10), .fin (1 / 10), .fin (1 / 10)⟩

omit [Arith] in
example : @Freezes NiaPy.Ex.arith Ex.par Ex.self := freezes_exact _ rfl rfl rfl (by norm_num) (by norm_num)

/-- Parameters for a hybrid bat algorithm that always searches locally. -/
def Ex.bat : BA.Par := ⟨.fin 1, .fin 5, .fin 1, .fin 1, .fin 0, .fin 2⟩

omit [Arith] in
/-- C63 is false: a run of the hybrid bat algorithm with `cross_rand1` ends with `TypeError`. -/
theorem C63_hba_run_false : ((@algH NiaPy.Ex.arith 1 (NiaPy.Ex.box 1) 2 Ex.bat ⟨@DE.crossRand1 NiaPy.Ex.arith 1, false⟩ (.fin 1) (.fin 1)).exec
    NiaPy.Ex.env2 true 0 5).1 = .error .typeError := by
  have h : (match ((@algH NiaPy.Ex.arith 1 (NiaPy.Ex.box 1) 2 Ex.bat ⟨@DE.crossRand1 NiaPy.Ex.arith 1, false⟩ (.fin 1) (.fin 1)).exec
    NiaPy.Ex.env2 true 0 5).1 with | .error .typeError => true | _ => false) = true := by decide +kernel
  split at h
  · assumption
  · cases h

omit [Arith] in
/-- C63, what holds: with a strategy that has a parameter `x_b` the hybrid's local search is the strategy followed by repair. -/
theorem C63_hba_partial (strat : DE.Strategy D) (f cr : Fl) (best : Vec D) (i : Fin N) (pop : Fin N → Vec D) :
    localH ⟨strat, true⟩ f cr best i pop = (strat pop i f cr best >>= fun y => Prog.repair y) := rfl

/-! ### C69: loudness in the adaptive bat algorithm -/

/-- `l'` is the adapted loudness `l`: multiplied with `alpha`, or put back to `starting_loudness` if that is not above 1e-13. -/
def Adapted (p : Par) (l l' : Fl) : Prop :=
  (lit 1 10000000000000 < l * p.alpha ∧ l' = l * p.alpha) ∨ (¬ lit 1 10000000000000 < l * p.alpha ∧ l' = p.startingLoudness)

theorem iter_loud (p : Par) (r : St D N × Vec D × Fl) (g : Ghost (Vec D)) :
    (iter p r.1 r.2.1 r.2.2).wp Ctx.any (fun r' _ => (r'.2 ≠ r.2 → ∃ i, Adapted p (r.1.loud i) (r'.1.loud i)) ∧
      ∀ i, r'.1.loud i = r.1.loud i ∨ Adapted p (r.1.loud i) (r'.1.loud i)) g := by
  have hU : ∀ l, Adapted p l (updateLoudness p l) := fun l => by
    unfold updateLoudness
    split
    · exact Or.inl ⟨‹_›, rfl⟩
    · exact Or.inr ⟨‹_›, rfl⟩
  refine Prog.wp_mono (fun a _ h => ⟨h.1, h.2.1⟩) (wp_forFin (fun k (a : St D N × Vec D × Fl) _ =>
    (a.2 ≠ r.2 → ∃ i, Adapted p (r.1.loud i) (a.1.loud i)) ∧ (∀ i, a.1.loud i = r.1.loud i ∨ Adapted p (r.1.loud i) (a.1.loud i)) ∧
      ∀ i : Fin N, k ≤ i.val → a.1.loud i = r.1.loud i)
    ⟨fun h => absurd rfl h, fun i => Or.inl rfl, fun _ _ => rfl⟩ ?_)
  rintro i ⟨s, xb, fxb⟩ g ⟨h1, h2, h3⟩
  have h1 : (xb, fxb) ≠ r.2 → ∃ i, Adapted p (r.1.loud i) (s.loud i) := h1
  have h2 : ∀ i, s.loud i = r.1.loud i ∨ Adapted p (r.1.loud i) (s.loud i) := h2
  have h3 : ∀ j : Fin N, i.val ≤ j.val → s.loud j = r.1.loud j := h3
  simp only [step, Prog.wp_bind', Prog.wp_rand]
  refine fun r1 _ _ => Prog.wp_any _ (fun y g => Prog.wp_any _ (fun a g => ?_) _) _
  obtain ⟨pop, fit, v⟩ := a
  simp only [Prog.wp_pure']
  by_cases hv : v ≤ fxb
  · simp only [hv, if_true, getBest1]
    have hi : Adapted p (r.1.loud i) (updateLoudness p (s.loud i)) := by rw [h3 i le_rfl]; exact hU _
    refine ⟨fun _ => ⟨i, by simpa using hi⟩, fun j => ?_, fun j hj => ?_⟩
    · by_cases hij : j = i
      · subst hij; right; simpa using hi
      · simpa [hij] using h2 j
    · have hij : j ≠ i := fun h => by subst h; omega
      simpa [hij] using h3 j (by omega)
  · simp only [hv, if_false, getBest1]
    exact ⟨h1, h2, fun j hj => h3 j (by omega)⟩

/-- C69: if an iteration replaces the best solution, the loudness of some bat is adapted; every loudness that is not adapted
is left as it was. -/
theorem C69_loudness (B : Box D) (N : ℕ) (p : Par) (env : Env (Vec D)) {ncb : ℕ} {hist : List (St D N × Vec D × Fl)}
    {w : World (Vec D)} (ht : (alg B N p).Trace env ncb hist w) :
    hist.IsChain fun r' r => (r'.2 ≠ r.2 → ∃ i, Adapted p (r.1.loud i) (r'.1.loud i)) ∧
      ∀ i, r'.1.loud i = r.1.loud i ∨ Adapted p (r.1.loud i) (r'.1.loud i) :=
  Alg.Trace.chain (A := alg B N p) ht (R := fun (r' r : St D N × Vec D × Fl) =>
    (r'.2 ≠ r.2 → ∃ i, Adapted p (r.1.loud i) (r'.1.loud i)) ∧ ∀ i, r'.1.loud i = r.1.loud i ∨ Adapted p (r.1.loud i) (r'.1.loud i))
    fun r g => iter_loud p r g

omit [Arith] in
/-- C69: without rounding, with `alpha <= 1` and `1e-13 < starting_loudness`, every loudness stays above 1e-13 and never
exceeds `starting_loudness`. -/
theorem C69_range (fn : Fn → Fl → Fl) (B : Box D) (N : ℕ) {p : Par} {al st : ℚ} (ha : p.alpha = .fin al) (h1 : al ≤ 1)
    (hs : p.startingLoudness = .fin st) (hst : (1 / 10000000000000 : ℚ) < st) (env : Env (Vec D)) {ncb : ℕ} {hist : List (St D N × Vec D × Fl)}
    {w : World (Vec D)} (ht : (@alg (exactArith fn) D B N p).Trace env ncb hist w) :
    ∀ r ∈ hist, ∀ i, ∃ q : ℚ, r.1.loud i = .fin q ∧ 1 / 10000000000000 < q ∧ q ≤ st := by
  letI := exactArith fn
  refine ht.states (P := fun s : St D N => ∀ i, ∃ q : ℚ, s.loud i = .fin q ∧ 1 / 10000000000000 < q ∧ q ≤ st) (fun g => ?_) fun r g hr =>
    Prog.wp_mono (fun r' _ h i => ?_) (iter_loud p r g)
  · simp only [alg, init, Prog.wp_bind']
    exact Prog.wp_any _ (fun a g i => ⟨st, hs, hst, le_rfl⟩) _
  · obtain ⟨q, hq, h2, h3⟩ := hr i
    rcases h.2 i with h4 | ⟨h4, h5⟩ | ⟨-, h5⟩
    · exact ⟨q, h4.trans hq, h2, h3⟩
    · rw [hq, ha] at h4 h5
      have h4 : Fl.fin (((1 : ℕ) : ℚ) / ((10000000000000 : ℕ) : ℚ)) < Fl.fin (q * al) := h4
      rw [Fl.fin_lt_fin] at h4
      push_cast at h4
      refine ⟨q * al, h5, h4, le_trans ?_ h3⟩
      have : (0 : ℚ) < q := lt_trans (by norm_num) h2
      nlinarith
    · exact ⟨st, h5.trans hs, hst, le_rfl⟩

/-! ### Concrete runs -/

example : ∃ hist w, (@alg NiaPy.Ex.arith 1 (NiaPy.Ex.box 1) 3 Ex.par).Trace NiaPy.Ex.env2 1 hist w ∧ hist.length = 3 := by
  let := NiaPy.Ex.arith
  exact (verified (NiaPy.Ex.box 1) 3 Ex.par).toIf.exists_trace NiaPy.Ex.env2 (metBy_none _ _) (fuel := 5) (by decide +kernel)

example : ∃ hist w, (@algS NiaPy.Ex.arith 1 (NiaPy.Ex.box 1) 3 Ex.par Ex.self).Trace NiaPy.Ex.env2 1 hist w ∧ hist.length = 3 := by
  let := NiaPy.Ex.arith
  exact (verifiedS (NiaPy.Ex.box 1) 3 Ex.par Ex.self).toIf.exists_trace NiaPy.Ex.env2 (metBy_none _ _) (fuel := 5) (by decide +kernel)

example : ∃ hist w, (@algHS NiaPy.Ex.arith 1 (NiaPy.Ex.box 1) 3 Ex.par Ex.self (@DE.crossBest1 NiaPy.Ex.arith 1) (.fin 1) (.fin 1)).Trace NiaPy.Ex.env2 1 hist w ∧
    hist.length = 3 := by
  let := NiaPy.Ex.arith
  exact (verifiedHS (NiaPy.Ex.box 1) 3 Ex.par Ex.self (strat := DE.crossBest1) (DE.quiet_strategy 2 _) (.fin 1) (.fin 1)).toIf.exists_trace NiaPy.Ex.env2 (metBy_none _ _) (fuel := 5) (by decide +kernel)

example : ∃ hist w, (@algH NiaPy.Ex.arith 1 (NiaPy.Ex.box 1) 3 Ex.bat ⟨@DE.crossBest1 NiaPy.Ex.arith 1, true⟩ (.fin 1) (.fin 1)).Trace NiaPy.Ex.env2 1 hist w ∧
    hist.length = 3 := by
  let := NiaPy.Ex.arith
  exact (verifiedH (NiaPy.Ex.box 1) 3 Ex.bat (c := ⟨DE.crossBest1, true⟩) (DE.quiet_strategy 2 _) (.fin 1) (.fin 1)).toIf.exists_trace NiaPy.Ex.env2
    (metBy_none _ _) (fuel := 5) (by decide +kernel)

example : ∃ hist w, (@algP NiaPy.Ex.arith 1 (NiaPy.Ex.box 1) 3).Trace NiaPy.Ex.env2 1 hist w ∧ hist.length = 3 := by
  let := NiaPy.Ex.arith
  exact (verifiedP (NiaPy.Ex.box 1) 3).toIf.exists_trace NiaPy.Ex.env2 (metBy_none _ _) (fuel := 5) (by decide +kernel)

end NiaPy.BAT
