import Verif.PopTools

/-!
# Cuckoo search (`niapy/algorithms/basic/cs.py`)
-/

namespace NiaPy.CS
open NiaPy
variable [Arith] {D N : ℕ}

/-- State of a run. -/
structure St (D N : ℕ) where
  pop : Fin N → Vec D
  fit : Fin N → Fl

/-- `Algorithm.init_population` with the default initialization (algorithm.py:246-264). -/
def init (B : Box D) (N : ℕ) : Prog (Vec D) (St D N) := do
  let (pop, fit) ← defaultNumpyInit B N
  return ⟨pop, fit⟩

/-- `levy_flight(rng, size=population.shape)` (util/random.py:8-25). -/
def levyRows (N D : ℕ) : Prog (Vec D) (Fin N → Vec D) := do
  let u ← tabM N fun _ => normVec D 0 levySigma
  let v ← tabM N fun _ => normVec D 0 1
  return fun i j => lit 1 100 * u i j / Arith.pow (Fl.abs (v i j)) (1 / lit 3 2)

/-- `get_cuckoos` (cs.py:96-99). -/
def getCuckoos (pop : Fin N → Vec D) (xb : Vec D) : Prog (Vec D) (Fin N → Vec D) := do
  let l ← levyRows N D
  let z ← tabM N fun _ => normVec D 0 1
  repairRows fun i j => pop i j + l i j * (pop i j - xb j) * z i j

/-- `empty_nests` (cs.py:101-106). -/
def emptyNests (pa : Fl) (pop : Fin N → Vec D) : Prog (Vec D) (Fin N → Vec D) := do
  let a ← tabM N fun _ => randVec D
  let i ← permIdx N
  let j ← permIdx N
  let r ← Prog.rand
  repairRows fun k d => pop k d + r * (pop (i k) d - pop (j k) d) * (if pa < a k d then 1 else 0)

/-- `run_iteration` (cs.py:108-144). -/
def iter (pa : Fl) (s : St D N) (xb : Vec D) (fxb : Fl) : Prog (Vec D) (St D N × Vec D × Fl) := do
  let new ← getCuckoos s.pop xb
  let newF ← evalRows new
  let (pop, fit) := keepBetter s.pop new s.fit newF
  let (xb, fxb) ← Prog.getBest (List.ofFn pop) (List.ofFn fit) xb fxb
  let new ← emptyNests pa pop
  let newF ← evalRows new
  let (pop, fit) := keepBetter pop new fit newF
  let (xb, fxb) ← Prog.getBest (List.ofFn pop) (List.ofFn fit) xb fxb
  return (⟨pop, fit⟩, xb, fxb)

/-- Cuckoo search with population size `N` (cs.py). -/
def alg (B : Box D) (N : ℕ) (pa : Fl) : Alg (Vec D) where
  σ := St D N
  init := init B N
  pop s := List.ofFn s.pop
  fit s := List.ofFn s.fit
  iter := iter pa

variable {C : Ctx (Vec D)}

theorem getCuckoos_good (pop : Fin N → Vec D) (xb : Vec D) : Yields C (getCuckoos pop xb) fun r => ∀ i, C.G (r i) := by
  unfold getCuckoos levyRows
  refine Yields.bindT (by yields) fun _ => Yields.bindT (by yields) fun _ => Yields.repairRows (Or.inl rfl)

theorem emptyNests_good (pa : Fl) (pop : Fin N → Vec D) : Yields C (emptyNests pa pop) fun r => ∀ i, C.G (r i) := by
  unfold emptyNests
  refine Yields.bindT (by yields) fun _ => Yields.bindT (by yields) fun _ => Yields.bindT (by yields) fun _ =>
    Yields.bindT (by yields) fun _ => Yields.repairRows (Or.inl rfl)

/-- Obligations of cuckoo search: `N` evaluations in the beginning, `2 * N` per iteration; every point outside the
default initialization is repaired with the generator of the algorithm. -/
theorem verified (B : Box D) (N : ℕ) (pa : Fl) : Verified (alg B N pa) B.Mem true true (.exact N (2 * N)) := by
  refine ⟨fun C s b => ∀ i, C.Fit b (s.pop i) (s.fit i), fun C hG hent _ => ⟨fun s b h => forall₂_ofFn h, fun g hg => ?_, ?_⟩⟩
  · simp only [alg, init, Prog.wp_bind']
    refine Prog.wp_mono (fun r g' h => ?_) (wp_defaultNumpyInit hG (Cov.pinf hg fun _ => False))
    exact ⟨h.2.2.1, h.2.2.2.1.mono fun u hu => hu.resolve_left id, h.2.2.2.2⟩
  · intro s xb fxb g hI hF hc
    have hinc : Inc C xb fxb g := ⟨hF, hc⟩
    simp only [alg, iter, Prog.wp_bind']
    refine (getCuckoos_good ..).wp fun new hnew => ?_
    refine wp_evalRows hnew hinc.cov fun r g1 _ hb1 hf1 hc1 hn1 => ?_
    have hI1 := fun i => (hI i).mono hb1
    refine wp_getBest_arr (keepBetter_fit hI1 hf1) (hinc.toFit.mono hb1) (hc1.keepBetter hI1 hf1) fun b1 hi1 => ?_
    refine (emptyNests_good ..).wp fun new2 hnew2 => ?_
    refine wp_evalRows hnew2 hi1.cov fun r2 g2 _ hb2 hf2 hc2 hn2 => ?_
    have hI2 := fun i => (keepBetter_fit hI1 hf1 i).mono hb2
    refine wp_getBest_arr (keepBetter_fit hI2 hf2) (hi1.toFit.mono hb2) (hc2.keepBetter hI2 hf2) fun b2 hi2 => ?_
    exact ⟨keepBetter_fit hI2 hf2, hi2.fit, hi2.eq, Cost.ok_exact (by omega)⟩

end NiaPy.CS
