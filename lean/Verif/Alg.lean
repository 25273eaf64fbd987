import Verif.Loops

/-!
# Model of `niapy/algorithms/algorithm.py` and `niapy/callbacks.py`

`get_best`, the default initialization, `Algorithm.run` with its callbacks, and the shape of an algorithm.
-/

namespace NiaPy
variable {X α : Type}

/-- Inner loop of `np.argmin`: the first NaN wins, otherwise the first smallest value. `cur` is the best value so far,
at position `ci`; `i` is the position of the head of the list. -/
def argminGo (cur : Fl) (ci i : ℕ) : List Fl → ℕ
  | [] => ci
  | v :: vs =>
    if cur = .nan then ci
    else if v < cur ∨ v = .nan then argminGo v i (i + 1) vs
    else argminGo cur ci (i + 1) vs

/-- `np.argmin`; raises `ValueError` for an empty array. -/
def argmin : List Fl → Except PyErr ℕ
  | [] => .error .valueError
  | v :: vs => .ok (argminGo v 0 1 vs)

/-- `Algorithm.get_best` for an array of individuals (algorithm.py:223-244). `.copy()` of `None` raises
`AttributeError`. Copying the solution is not visible in a model without mutation. -/
def getBest (pop : List X) (fit : List Fl) (bestX : Option X) (bestF : Fl) : Except PyErr (X × Fl) :=
  match argmin fit with
  | .error e => .error e
  | .ok ib =>
    match fit[ib]? with
    | none => .error .indexError
    | some f =>
      if f ≤ bestF then
        match pop[ib]? with
        | none => .error .indexError
        | some x => .ok (x, f)
      else
        match bestX with
        | none => .error .attributeError
        | some x => .ok (x, bestF)

/-- `Algorithm.get_best` for a single individual with a scalar fitness (algorithm.py:239-240). -/
def getBest1 (x : X) (f : Fl) (bestX : X) (bestF : Fl) : X × Fl := if f ≤ bestF then (x, f) else (bestX, bestF)

/-- `self.get_best(pop, fpop, xb, fxb)` inside an algorithm. -/
def Prog.getBest (pop : List X) (fit : List Fl) (xb : X) (fxb : Fl) : Prog X (X × Fl) :=
  Prog.ofExcept (NiaPy.getBest pop fit (some xb) fxb)

/-- An optimization algorithm: the state of its run (population, fitness values, additional arguments),
`init_population` and `run_iteration` (algorithm.py:246-291). `pop` and `fit` are what the callbacks are shown. -/
structure Alg (X : Type) where
  σ : Type
  init : Prog X σ
  pop : σ → List X
  fit : σ → List Fl
  iter : σ → X → Fl → Prog X (σ × X × Fl)

/-- A method of `CallbackList`: the same method of every callback, in order (callbacks.py:83-117). -/
def fireAll (ncb : ℕ) (e : Event X) : Prog X Unit := forList (List.range ncb) (fun i _ => Prog.fire i e) ()

/-- The `while` loop of `Algorithm.run` (algorithm.py:313-317). A run that needs more than `fuel` rounds is cut off with
`outOfFuel`; C17 shows when this does not happen. -/
def Alg.loop (A : Alg X) (ncb : ℕ) : ℕ → A.σ → X → Fl → Prog X (A.σ × X × Fl)
  | 0, _, _, _ => .throw .outOfFuel
  | fuel + 1, s, xb, fxb => do
    let v ← Prog.look
    if v.stopped then return (s, xb, fxb)
    else do
      fireAll ncb (.beforeIteration (A.pop s) (A.fit s) xb fxb)
      let (s, xb, fxb) ← A.iter s xb fxb
      fireAll ncb (.afterIteration (A.pop s) (A.fit s) xb fxb)
      Prog.next
      A.loop ncb fuel s xb fxb

/-- The `try` block of `Algorithm.run` (algorithm.py:309-319), with the final state of the algorithm. -/
def Alg.body (A : Alg X) (ncb fuel : ℕ) : Prog X (A.σ × X × Fl) := do
  fireAll ncb .beforeRun
  let s ← A.init
  let (xb, fxb) ← Prog.ofExcept (getBest (A.pop s) (A.fit s) none .pinf)
  let r ← A.loop ncb fuel s xb fxb
  fireAll ncb .afterRun
  return r

/-- What `Algorithm.run` returns, and the attribute `exception` it leaves behind. -/
structure RunOut (X : Type) where
  result : Option (X × Fl)
  exception : Option PyErr

/-- `Algorithm.run` (algorithm.py:293-323). In the main thread of the main process an exception is raised again;
elsewhere it is stored and `(None, None)` is returned. `main` says where the run happens. `outOfFuel` is an artefact of
the model and passes through. -/
def Alg.run (A : Alg X) (opt : OptType) (main : Bool) (ncb fuel : ℕ) : Prog X (RunOut X) :=
  ((A.body ncb fuel).bind fun r => .pure ⟨some (r.2.1, opt.mul r.2.2), none⟩).tryCatch fun e =>
    if main = true ∨ e = .outOfFuel then .throw e else .pure ⟨none, some e⟩

/-- `Algorithm.bad_run` (algorithm.py:325-332) after a single run. -/
def RunOut.badRun (r : RunOut X) : Bool := r.exception.isSome

/-! ### Default initialization -/

variable {D : ℕ}

/-- `default_numpy_init` (algorithm.py:24-40): a uniform population, evaluated row by row
(`np.apply_along_axis(task.eval, 1, pop)`; for `population_size = 0` that raises `ValueError`). -/
def defaultNumpyInit (B : Box D) (N : ℕ) : Prog (Vec D) ((Fin N → Vec D) × (Fin N → Fl)) := do
  let pop ← tabM N fun _ => unifVec B.lo B.hi
  if N = 0 then .throw .valueError
  else do
    let fpop ← tabM N fun i => Prog.eval (pop i)
    return (pop, fpop)

/-! ### Individuals -/

/-- `Individual` (algorithm.py:335-353): coordinates and fitness. -/
structure Indiv (D : ℕ) where
  x : Vec D
  f : Fl

/-- `Individual.evaluate` (algorithm.py:386-400). The generator is passed on to `task.repair`. -/
def Indiv.evaluate (i : Indiv D) : Prog (Vec D) (Indiv D) := do
  let x ← Prog.repair i.x
  let f ← Prog.eval x
  return ⟨x, f⟩

/-- `Individual(x=x, task=task, e=True, rng=rng)` (algorithm.py:355-372): the given coordinates, evaluated. Before the
evaluation the fitness is `inf * optimization_type`. -/
def Indiv.new (opt : OptType) (x : Vec D) : Prog (Vec D) (Indiv D) := Indiv.evaluate ⟨x, opt.mul .pinf⟩

/-- `Individual(task=task, rng=rng, e=True)` (algorithm.py:355-384): random coordinates, evaluated. -/
def Indiv.random (opt : OptType) (B : Box D) : Prog (Vec D) (Indiv D) := do
  let x ← unifVec B.lo B.hi
  Indiv.evaluate ⟨x, opt.mul .pinf⟩

/-- `Individual.copy` (algorithm.py:402-411): `Individual(x=self.x.copy(), e=False, f=self.f)`; the constructor ignores
`f` and sets the fitness to `inf`. -/
def Indiv.copy (i : Indiv D) : Indiv D := ⟨i.x, .pinf⟩

/-- `Individual.__eq__` for two individuals (algorithm.py:413-428): `np.array_equal` and `==`. -/
def Indiv.beq (i j : Indiv D) : Bool := ((List.finRange D).all fun k => Fl.eqB (i.x k) (j.x k)) && Fl.eqB i.f j.f

/-- `default_individual_init` (algorithm.py:43-59). -/
def defaultIndividualInit (opt : OptType) (B : Box D) (N : ℕ) : Prog (Vec D) (Fin N → Indiv D) :=
  tabM N fun _ => Indiv.random opt B

end NiaPy
