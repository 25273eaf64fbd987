import Verif.Task

/-!
# Client programs of the task API and their semantics

An optimization algorithm (or any other client) is a program that calls `task.eval`, `task.repair`,
`task.next_iter`, reads the counters of the task, draws random numbers and fires callbacks. `Prog X α` is the type
of such programs (a free monad), `Prog.run` is its interpreter. The interpreter keeps two ghost logs: every call of
the objective function with what it returned or raised, and every callback event.
-/

namespace NiaPy

/-- NaN-last order used by `np.argsort`/`np.sort`. -/
def leNanLast (a b : Fl) : Prop := b = .nan ∨ a ≤ b

/-- Distributions drawn from without a range guarantee: `normal`, `standard_cauchy`, `exponential`, `gumbel`,
`beta`-like and heavy-tailed ones. -/
inductive Dist where
  | normal
  | cauchy
  | other (tag : ℕ)
  deriving DecidableEq

/-- A random generator (`numpy.random.Generator`) as an oracle: the result of the `k`-th draw is an arbitrary value
subject to what the NumPy documentation promises. The assumption made for `uniform` is that the result lies in the
closed interval. `argsort` is here because NumPy's default sort is not stable: any sorting permutation may come out. -/
structure Rng where
  rand : ℕ → Fl
  /-- A double from `[0, 1)`. -/
  rand_le : ∀ k, Fl.fin 0 ≤ rand k ∧ rand k ≤ Fl.belowOne
  /-- the second number is the position inside one vectorised draw -/
  unif : ℕ → ℕ → Fl → Fl → Fl
  unif_mem : ∀ k j lo hi, lo ≤ hi → lo ≤ unif k j lo hi ∧ unif k j lo hi ≤ hi
  dist : ℕ → Dist → Fl → Fl → Fl
  int : ℕ → ℕ → ℕ
  int_lt : ∀ k n, 0 < n → int k n < n
  perm : ℕ → ℕ → List ℕ
  perm_perm : ∀ k n, (perm k n).Perm (List.range n)
  argsort : ℕ → List Fl → List ℕ
  argsort_perm : ∀ k l, (argsort k l).Perm (List.range l.length)
  argsort_sorted : ∀ k l, (argsort k l).Pairwise fun i j => leNanLast (l.getD i .nan) (l.getD j .nan)

theorem Rng.rand_mem (r : Rng) (k : ℕ) : Fl.fin 0 ≤ r.rand k ∧ r.rand k < Fl.fin 1 :=
  ⟨(r.rand_le k).1, Fl.lt_one (r.rand_le k).2⟩

/-- What a callback is given (callbacks.py:25-53, algorithm.py:310-317): for `before_iteration`/`after_iteration`
the population with its fitness values, the best solution and its fitness. -/
inductive Event (X : Type) where
  | beforeRun
  | beforeIteration (pop : List X) (fpop : List Fl) (xb : X) (fxb : Fl)
  | afterIteration (pop : List X) (fpop : List Fl) (xb : X) (fxb : Fl)
  | afterRun

/-- Everything a program is run against: the task configuration, the repair function of the task, the seeded
generator of the algorithm, the operating-system entropy (what `default_rng(None)` yields) and the callbacks. -/
structure Env (X : Type) extends TaskCfg X where
  /-- `task.repair_function(x, lower, upper, rng=...)`, an arbitrary function of the generator it is given, of the
  number of draws made before and of the point. -/
  repairFn : Rng → ℕ → X → X
  rng : Rng
  entropy : Rng
  /-- Callback number `i`, as a function of the number of events before; it may raise. Callbacks are observers:
  they get the values but do not change them. -/
  callback : ℕ → ℕ → Event X → Except PyErr Unit

/-- State of an execution. `calls` is the ghost log of objective calls, `events` that of callback invocations
(callback number, event); both in chronological order. `rk`, `ek` count draws. -/
structure World (X : Type) where
  st : TaskSt
  calls : List (X × Except PyErr Fl)
  events : List (ℕ × Event X)
  rk : ℕ
  ek : ℕ

/-- The attributes of a task that the algorithms read (no algorithm reads `x_f`). -/
structure TaskView where
  iters : ℕ
  evals : ℕ
  maxIters : Option ℕ
  maxEvals : Option ℕ
  stopped : Bool

/-- API operations. `repair true` passes the algorithm's generator (`rng=self.rng`), `repair false` passes none. -/
inductive Op (X : Type) where
  | eval (x : X)
  | nextIter
  | look
  | repair (seeded : Bool) (x : X)
  | rand
  | unif (lo hi : Fl)
  | dist (d : Dist) (a b : Fl)
  | int (n : ℕ)
  | perm (n : ℕ)
  | argsort (l : List Fl)
  | fire (i : ℕ) (e : Event X)

/-- Result type of an operation. -/
def Op.Ret {X : Type} : Op X → Type
  | .eval _ => Fl
  | .nextIter => Unit
  | .look => TaskView
  | .repair _ _ => X
  | .rand => Fl
  | .unif _ _ => Fl
  | .dist _ _ _ => Fl
  | .int _ => ℕ
  | .perm _ => List ℕ
  | .argsort _ => List ℕ
  | .fire _ _ => Unit

/-- Programs over the API. After an operation the program goes on with what the operation returned or raised, so
programs that catch exceptions (`tryCatch`) are included. -/
inductive Prog (X : Type) (α : Type) where
  | pure (a : α)
  | throw (e : PyErr)
  | op (o : Op X) (k : Except PyErr o.Ret → Prog X α)

namespace Prog
variable {X α β γ : Type}

/-- Sequential composition. -/
def bind : Prog X α → (α → Prog X β) → Prog X β
  | .pure a, f => f a
  | .throw e, _ => .throw e
  | .op o k, f => .op o fun r => (k r).bind f

instance : Monad (Prog X) where
  pure := Prog.pure
  bind := Prog.bind

/-- Continue with a result, or raise the exception. -/
def ofExcept : Except PyErr α → Prog X α
  | .ok a => .pure a
  | .error e => .throw e

/-- `try: p except Exception as e: h(e)` -/
def tryCatch : Prog X α → (PyErr → Prog X α) → Prog X α
  | .pure a, _ => .pure a
  | .throw e, h => h e
  | .op o k, h => .op o fun r => (k r).tryCatch h

/-- A single operation as a program; an exception is propagated. -/
def lift (o : Op X) : Prog X o.Ret := .op o ofExcept

/-- `task.eval(x)` -/
def eval (x : X) : Prog X Fl := lift (.eval x)
/-- `task.next_iter()` -/
def next : Prog X Unit := lift .nextIter
/-- reading `task.iters`, `task.evals`, `task.max_iters`, `task.max_evals`, `task.stopping_condition()` -/
def look : Prog X TaskView := lift .look
/-- `task.repair(x, rng=self.rng)` (`seeded`) or `task.repair(x)` (not `seeded`) -/
def repair (x : X) (seeded : Bool := true) : Prog X X := lift (.repair seeded x)
/-- `self.random()` -/
def rand : Prog X Fl := lift .rand
/-- `self.uniform(lo, hi)` -/
def unif (lo hi : Fl) : Prog X Fl := lift (.unif lo hi)
/-- `self.normal(loc, scale)` -/
def norm (loc scale : Fl) : Prog X Fl := lift (.dist .normal loc scale)
/-- a draw from another distribution -/
def dist (d : Dist) (a b : Fl) : Prog X Fl := lift (.dist d a b)
/-- `self.integers(n)` -/
def int (n : ℕ) : Prog X ℕ := lift (.int n)
/-- `self.rng.permutation(n)` -/
def perm (n : ℕ) : Prog X (List ℕ) := lift (.perm n)
/-- `np.argsort(l)` -/
def argsort (l : List Fl) : Prog X (List ℕ) := lift (.argsort l)
/-- one callback method call -/
def fire (i : ℕ) (e : Event X) : Prog X Unit := lift (.fire i e)

end Prog

/-- The exception raised by `Generator.uniform(lo, hi)`: `OverflowError` if the range is not finite, `ValueError` if it is
negative. (The range is taken exactly; finite bounds whose difference exceeds the largest double are not distinguished.) -/
def unifErr : Fl → Fl → Option PyErr
  | .fin a, .fin b => if a ≤ b then none else some .valueError
  | _, _ => some .overflowError

/-- The exception raised by `Generator.normal(loc, scale)`: `ValueError` if the scale is negative. -/
def distErr (d : Dist) (scale : Fl) : Option PyErr :=
  if d = .normal ∧ scale < .fin 0 then some .valueError else none

theorem unifErr_ne (lo hi : Fl) : unifErr lo hi ≠ some .outOfFuel := by
  unfold unifErr
  split <;> (try split) <;> nofun

theorem distErr_ne (d : Dist) (b : Fl) : distErr d b ≠ some .outOfFuel := by
  unfold distErr
  split <;> nofun

/-- Semantics of one operation: what is returned or raised, and the next world. -/
def stepOp {X : Type} (env : Env X) (w : World X) : (o : Op X) → Except PyErr o.Ret × World X
  | .eval x =>
    let r := evalTask env.toTaskCfg w.st x
    (r.1, { w with st := r.2.1, calls := w.calls ++ r.2.2 })
  | .nextIter => (.ok (), { w with st := nextIter w.st })
  | .look => (.ok { iters := w.st.iters, evals := w.st.evals, maxIters := env.maxIters, maxEvals := env.maxEvals,
                    stopped := stoppingCondition env.toTaskCfg w.st }, w)
  | .repair true x => (.ok (env.repairFn env.rng w.rk x), { w with rk := w.rk + 1 })
  | .repair false x => (.ok (env.repairFn env.entropy w.ek x), { w with ek := w.ek + 1 })
  | .rand => (.ok (env.rng.rand w.rk), { w with rk := w.rk + 1 })
  | .unif lo hi => match unifErr lo hi with
    | some e => (.error e, w)
    | none => (.ok (env.rng.unif w.rk 0 lo hi), { w with rk := w.rk + 1 })
  | .dist d a b => match distErr d b with
    | some e => (.error e, w)
    | none => (.ok (env.rng.dist w.rk d a b), { w with rk := w.rk + 1 })
  | .int n => if n = 0 then (.error .valueError, w) else (.ok (env.rng.int w.rk n), { w with rk := w.rk + 1 })
  | .perm n => (.ok (env.rng.perm w.rk n), { w with rk := w.rk + 1 })
  | .argsort l => (.ok (env.rng.argsort w.rk l), { w with rk := w.rk + 1 })
  | .fire i e => (env.callback i w.events.length e, { w with events := w.events ++ [(i, e)] })

/-- The interpreter. An exception that is not caught ends the program; the world reached so far is kept. -/
def Prog.run {X α : Type} (env : Env X) : Prog X α → World X → Except PyErr α × World X
  | .pure a, w => (.ok a, w)
  | .throw e, w => (.error e, w)
  | .op o k, w => (k (stepOp env w o).1).run env (stepOp env w o).2

/-- The world just after the task was constructed. -/
def World.init {X : Type} (opt : OptType) : World X :=
  { st := TaskSt.init opt, calls := [], events := [], rk := 0, ek := 0 }

/-! ### Monad laws and the interpreter -/

namespace Prog
variable {X α β γ : Type}

@[simp] theorem pure_def (a : α) : (Pure.pure a : Prog X α) = .pure a := rfl
@[simp] theorem bind_def (p : Prog X α) (f : α → Prog X β) : (p >>= f) = p.bind f := rfl
@[simp] theorem pure_bind' (a : α) (f : α → Prog X β) : (Prog.pure a).bind f = f a := rfl
@[simp] theorem throw_bind (e : PyErr) (f : α → Prog X β) : (Prog.throw e : Prog X α).bind f = .throw e := rfl

theorem bind_pure' (p : Prog X α) : p.bind .pure = p := by
  induction p with
  | pure a => rfl
  | throw e => rfl
  | op o k ih => simp [bind, ih]

theorem bind_assoc' (p : Prog X α) (f : α → Prog X β) (g : β → Prog X γ) :
    (p.bind f).bind g = p.bind fun a => (f a).bind g := by
  induction p with
  | pure a => rfl
  | throw e => rfl
  | op o k ih => simp [bind, ih]

instance : LawfulMonad (Prog X) :=
  LawfulMonad.mk' (m := Prog X) (id_map := fun p => bind_pure' p) (pure_bind := fun _ _ => rfl)
    (bind_assoc := fun p f g => bind_assoc' p f g)

@[simp] theorem run_pure (env : Env X) (a : α) (w : World X) : (Prog.pure a).run env w = (.ok a, w) := rfl
@[simp] theorem run_throw (env : Env X) (e : PyErr) (w : World X) :
    (Prog.throw e : Prog X α).run env w = (.error e, w) := rfl

theorem run_bind (env : Env X) (p : Prog X α) (f : α → Prog X β) (w : World X) :
    (p.bind f).run env w =
      match p.run env w with
      | (.ok a, w') => (f a).run env w'
      | (.error e, w') => (.error e, w') := by
  induction p generalizing w with
  | pure a => rfl
  | throw e => rfl
  | op o k ih => simp only [bind, run, ih]

theorem run_tryCatch (env : Env X) (p : Prog X α) (h : PyErr → Prog X α) (w : World X) :
    (p.tryCatch h).run env w =
      match p.run env w with
      | (.ok a, w') => (.ok a, w')
      | (.error e, w') => (h e).run env w' := by
  induction p generalizing w with
  | pure a => rfl
  | throw e => rfl
  | op o k ih => simp only [tryCatch, run, ih]

@[simp] theorem run_lift (env : Env X) (o : Op X) (w : World X) : (lift o).run env w = stepOp env w o := by
  simp only [lift, run]
  cases stepOp env w o with
  | mk r w' => cases r <;> rfl

theorem run_eval (env : Env X) (x : X) (w : World X) :
    (eval x).run env w = ((evalTask env.toTaskCfg w.st x).1,
      { w with st := (evalTask env.toTaskCfg w.st x).2.1, calls := w.calls ++ (evalTask env.toTaskCfg w.st x).2.2 }) :=
  run_lift env (.eval x) w
theorem run_next (env : Env X) (w : World X) :
    (next : Prog X Unit).run env w = (.ok (), { w with st := nextIter w.st }) := run_lift env .nextIter w
theorem run_look (env : Env X) (w : World X) :
    (look : Prog X TaskView).run env w =
      (.ok { iters := w.st.iters, evals := w.st.evals, maxIters := env.maxIters, maxEvals := env.maxEvals,
             stopped := stoppingCondition env.toTaskCfg w.st }, w) := run_lift env .look w
theorem run_fire (env : Env X) (i : ℕ) (e : Event X) (w : World X) :
    (fire i e).run env w = (env.callback i w.events.length e, { w with events := w.events ++ [(i, e)] }) :=
  run_lift env (.fire i e) w

end Prog

end NiaPy
