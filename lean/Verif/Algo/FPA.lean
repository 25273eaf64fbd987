import Verif.PopTools

/-!
# Flower pollination algorithm (`niapy/algorithms/basic/fpa.py`)
-/

namespace NiaPy.FPA
open NiaPy
variable [Arith] {D N : ℕ}

/-- State of a run: population, fitness values and `solutions` (fpa.py:98-102). -/
structure St (D N : ℕ) where
  pop : Fin N → Vec D
  fit : Fin N → Fl
  sols : Fin N → Vec D

/-- `init_population` (fpa.py:98-102). -/
def init (B : Box D) (N : ℕ) : Prog (Vec D) (St D N) := do
  let (pop, fit) ← defaultNumpyInit B N
  return ⟨pop, fit, pop⟩

/-- The candidate of flower `i` (fpa.py:127-134). -/
def candidate (p : Fl) (s : St D N) (i : Fin N) (xb : Vec D) : Prog (Vec D) (Vec D) := do
  let r ← Prog.rand
  if p < r then do
    let l ← levyVec D
    Prog.repair fun j => s.pop i j + l j * (s.pop i j - xb j)
  else do
    let jk ← choiceFin N 2
    let r ← Prog.rand
    Prog.repair fun d => s.sols i d + r * (s.pop (jk 0) d - s.pop (jk 1) d)

/-- Body of the loop over the flowers (fpa.py:126-139). -/
def step (p : Fl) (i : Fin N) (a : St D N × Vec D × Fl) : Prog (Vec D) (St D N × Vec D × Fl) := do
  let (s, xb, fxb) := a
  let y ← candidate p s i xb
  let v ← Prog.eval y
  let s := { s with sols := Function.update s.sols i y }
  let s := if v ≤ s.fit i then { s with pop := Function.update s.pop i y, fit := Function.update s.fit i v } else s
  return (s, getBest1 y v xb fxb)

/-- `run_iteration` (fpa.py:104-140). -/
def iter (p : Fl) (s : St D N) (xb : Vec D) (fxb : Fl) : Prog (Vec D) (St D N × Vec D × Fl) :=
  forFin N (step p) (s, xb, fxb)

/-- The flower pollination algorithm with population size `N` (fpa.py). -/
def alg (B : Box D) (N : ℕ) (p : Fl) : Alg (Vec D) where
  σ := St D N
  init := init B N
  pop s := List.ofFn s.pop
  fit s := List.ofFn s.fit
  iter := iter p

variable {C : Ctx (Vec D)}

theorem candidate_good (p : Fl) (s : St D N) (i : Fin N) (xb : Vec D) : Yields C (candidate p s i xb) C.G := by
  unfold candidate
  yields

/-- The obligations of the flower pollination algorithm: `N` evaluations in the beginning and per iteration. -/
theorem verified (B : Box D) (N : ℕ) (p : Fl) : Verified (alg B N p) B.Mem true true (.exact N N) := by
  refine ⟨fun C s b => ∀ i, C.Fit b (s.pop i) (s.fit i), fun C hG hent _ => ⟨fun s b h => forall₂_ofFn h, fun g hg => ?_, ?_⟩⟩
  · simp only [alg, init, Prog.wp_bind']
    exact wp_initArr hG hg fun r g' _ _ h3 h4 h5 => ⟨h3, h4, h5⟩
  · intro s xb fxb g hI hF hc
    simp only [alg, iter]
    refine Prog.wp_mono ?_ (wp_forFin (fun k a g' => (∀ i, C.Fit g'.b (a.1.pop i) (a.1.fit i)) ∧
      Inc C a.2.1 a.2.2 g' ∧ g'.c = g.c + k) ⟨hI, ⟨hF, hc⟩, rfl⟩ ?_)
    · rintro ⟨s', xb', fxb'⟩ g' ⟨h1, h2, h3⟩
      exact ⟨h1, h2.fit, h2.eq, Cost.ok_exact h3⟩
    · rintro i ⟨s, xb, fxb⟩ g ⟨h1, h2, h3⟩
      simp only [step, Prog.wp_bind']
      refine (candidate_good ..).wp fun y hy => ?_
      rw [Prog.wp_eval]
      refine ⟨hy, fun v hv => ⟨?_, h2.leq hv, by simp [Ghost.eval, h3, add_assoc]⟩⟩
      simp only
      split
      · exact aligned_update (fit_eval h1 v) i (.new hv)
      · exact fit_eval h1 v

end NiaPy.FPA
