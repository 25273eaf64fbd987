import Verif.Fl

/-!
# Model of `niapy/task.py`

`TaskCfg` holds the attributes of a `Task` that never change after construction, `TaskSt` those that do.
The objective (`problem.evaluate`) is an arbitrary function of the number of earlier calls and of the point:
it may be noisy or stateful, may raise, may return NaN or infinities.
-/

namespace NiaPy

/-- `OptimizationType` (task.py:20-30). -/
inductive OptType where
  | minimization
  | maximization
  deriving DecidableEq, Inhabited

/-- `v * optimization_type.value` (the value is `1.0` or `-1.0`, task.py:29-30); multiplication of a float by
`1.0`/`-1.0` is exact, it returns the float itself or its negation. -/
def OptType.mul : OptType → Fl → Fl
  | .minimization, v => v
  | .maximization, v => -v

/-- Immutable part of a `Task` (task.py:58-104). `none` as a limit stands for the default `np.inf`; a limit is a
non-negative integer otherwise (the documented type). `X` is the type of solutions. -/
structure TaskCfg (X : Type) where
  /-- `problem.evaluate`; the first argument is the number of evaluations made before. -/
  obj : ℕ → X → Except PyErr Fl
  opt : OptType
  maxEvals : Option ℕ
  maxIters : Option ℕ
  cutoff : Fl

/-- Mutable part of a `Task` (task.py:92-104). -/
structure TaskSt where
  iters : ℕ
  evals : ℕ
  xf : Fl
  nEvals : List ℕ
  fitnessEvals : List Fl
  fitnessIters : List Fl
  deriving DecidableEq

/-- `Task.__init__` (task.py:92-99): the cutoff defaults to `-inf * type`; limits default to `inf`. -/
def TaskCfg.mk' {X : Type} (obj : ℕ → X → Except PyErr Fl) (opt : OptType := .minimization)
    (maxEvals maxIters : Option ℕ := none) (cutoff : Option Fl := none) : TaskCfg X :=
  { obj := obj, opt := opt, maxEvals := maxEvals, maxIters := maxIters,
    cutoff := match cutoff with
      | none => opt.mul .ninf
      | some c => c }

/-- State after `Task.__init__` (task.py:92-104): `x_f = inf * type`, empty records. -/
def TaskSt.init (opt : OptType) : TaskSt :=
  { iters := 0, evals := 0, xf := opt.mul .pinf, nEvals := [], fitnessEvals := [], fitnessIters := [] }

/-- `n >= limit` where `limit` may be infinite. -/
def reached (n : ℕ) : Option ℕ → Bool
  | none => false
  | some m => decide (m ≤ n)

/-- `Task.stopping_condition` (task.py:167-174). -/
def stoppingCondition {X : Type} (c : TaskCfg X) (s : TaskSt) : Bool :=
  reached s.evals c.maxEvals || reached s.iters c.maxIters || decide (c.opt.mul s.xf ≤ c.opt.mul c.cutoff)

/-- `Task.next_iter` (task.py:126-129). -/
def nextIter (s : TaskSt) : TaskSt :=
  { s with fitnessIters := s.fitnessIters ++ [s.xf], iters := s.iters + 1 }

/-- The bookkeeping of `Task.eval` after the objective returned (task.py:144-151); `v` is the objective value
already multiplied by the optimization type. -/
def record (opt : OptType) (s : TaskSt) (v : Fl) : TaskSt :=
  if v < opt.mul s.xf then
    { s with xf := opt.mul v, nEvals := s.nEvals ++ [s.evals], fitnessEvals := s.fitnessEvals ++ [v] }
  else s

/-- `Task.eval` (task.py:131-153). The result is what is returned (or raised), the new state, and the calls of the
objective that were made (a ghost record: at most one, with what it returned or raised). The counter is incremented
before the objective is called, so a raising objective leaves the counter incremented. Logging (task.py:149-150) is
not modelled. -/
def evalTask {X : Type} (c : TaskCfg X) (s : TaskSt) (x : X) :
    Except PyErr Fl × TaskSt × List (X × Except PyErr Fl) :=
  if stoppingCondition c s then (.ok .pinf, s, [])
  else
    let s1 := { s with evals := s.evals + 1 }
    let res := c.obj s.evals x
    match res with
    | .error e => (.error e, s1, [(x, res)])
    | .ok r => let v := c.opt.mul r; (.ok v, record c.opt s1 v, [(x, res)])

/-- `Task.stopping_condition_iter` (task.py:176-185). -/
def stoppingConditionIter {X : Type} (c : TaskCfg X) (s : TaskSt) : Bool × TaskSt :=
  (stoppingCondition c s, nextIter s)

/-! ### Basic facts about `OptType.mul` -/

namespace OptType

@[simp] theorem mul_mul (t : OptType) (v : Fl) : t.mul (t.mul v) = v := by
  cases t <;> simp [mul]

@[simp] theorem mul_eq_nan (t : OptType) (v : Fl) : t.mul v = .nan ↔ v = .nan := by
  cases t <;> simp [mul]

theorem mul_inj {t : OptType} {a b : Fl} : t.mul a = t.mul b ↔ a = b := by
  cases t <;> simp [mul, Fl.neg_inj]

end OptType

end NiaPy
