import Verif.TaskProps
import Verif.Example

/-!
# C06: maximizing `f` is minimizing `-f`, for every client program
-/

namespace NiaPy
variable {X α : Type}

/-- The other optimization type. -/
def OptType.flip : OptType → OptType
  | .minimization => .maximization
  | .maximization => .minimization

/-- The task with negated objective, negated cutoff and the opposite optimization type. -/
def Env.dual (env : Env X) : Env X :=
  { env with
    obj := fun k x => match env.obj k x with
      | .ok r => .ok (-r)
      | .error e => .error e
    opt := env.opt.flip
    cutoff := -env.cutoff }

/-- Negated objective results. -/
def negRes : Except PyErr Fl → Except PyErr Fl
  | .ok r => .ok (-r)
  | .error e => .error e

/-- Two worlds that mirror each other: same counters, same recorded evaluation numbers, same internal fitness record,
same callback events; best values, per-iteration best values and objective values negated. -/
structure Mirror (w w' : World X) : Prop where
  iters : w'.st.iters = w.st.iters
  evals : w'.st.evals = w.st.evals
  xf : w'.st.xf = -w.st.xf
  nEvals : w'.st.nEvals = w.st.nEvals
  fitnessEvals : w'.st.fitnessEvals = w.st.fitnessEvals
  fitnessIters : w'.st.fitnessIters = w.st.fitnessIters.map (- ·)
  calls : w'.calls = w.calls.map fun c => (c.1, negRes c.2)
  events : w'.events = w.events
  rk : w'.rk = w.rk
  ek : w'.ek = w.ek

theorem flip_mul_neg (t : OptType) (v : Fl) : t.flip.mul (-v) = t.mul v := by
  cases t <;> simp [OptType.flip, OptType.mul]

theorem flip_mul (t : OptType) (v : Fl) : t.flip.mul v = -t.mul v := by
  cases t <;> simp [OptType.flip, OptType.mul]

theorem Mirror.stopping {w w' : World X} (env : Env X) (h : Mirror w w') :
    stoppingCondition env.dual.toTaskCfg w'.st = stoppingCondition env.toTaskCfg w.st := by
  simp only [stoppingCondition, Env.dual, h.iters, h.evals, h.xf, flip_mul_neg]

theorem Mirror.record {w w' : World X} (t : OptType) (h : Mirror w w') (v : Fl) :
    (record t.flip { w'.st with evals := w'.st.evals + 1 } v).nEvals =
      (record t { w.st with evals := w.st.evals + 1 } v).nEvals ∧
    (record t.flip { w'.st with evals := w'.st.evals + 1 } v).fitnessEvals =
      (record t { w.st with evals := w.st.evals + 1 } v).fitnessEvals ∧
    (record t.flip { w'.st with evals := w'.st.evals + 1 } v).xf =
      -(record t { w.st with evals := w.st.evals + 1 } v).xf := by
  unfold NiaPy.record
  simp only [h.xf, flip_mul_neg]
  by_cases hlt : v < t.mul w.st.xf
  · simp [hlt, h.nEvals, h.evals, h.fitnessEvals, flip_mul]
  · simp [hlt, h.nEvals, h.fitnessEvals, h.xf]

/-- One operation on mirrored worlds gives the same result and mirrored worlds. -/
theorem Mirror.step {w w' : World X} (env : Env X) (h : Mirror w w') (o : Op X) :
    (stepOp env.dual w' o).1 = (stepOp env w o).1 ∧ Mirror (stepOp env w o).2 (stepOp env.dual w' o).2 := by
  cases o with
  | eval x =>
    have hst := h.stopping env
    have hrec := h.record env.opt
    simp only [stepOp]
    rcases evalTask_cases env.toTaskCfg w.st x with ⟨hs, he⟩ | ⟨hs, e, ho, he⟩ | ⟨hs, r, ho, he⟩
    · rw [he]
      have he' : evalTask env.dual.toTaskCfg w'.st x = (.ok .pinf, w'.st, []) := by
        simp [evalTask, hst, hs]
      rw [he']
      refine ⟨rfl, ?_⟩
      constructor <;> simp [h.iters, h.evals, h.xf, h.nEvals, h.fitnessEvals, h.fitnessIters, h.calls, h.events, h.rk, h.ek]
    · rw [he]
      have ho' : env.dual.obj w'.st.evals x = .error e := by simp [Env.dual, h.evals, ho]
      have he' : evalTask env.dual.toTaskCfg w'.st x =
          (.error e, { w'.st with evals := w'.st.evals + 1 }, [(x, .error e)]) := by
        simp [evalTask, hst, hs, ho']
      rw [he']
      refine ⟨rfl, ?_⟩
      constructor <;> simp [h.iters, h.evals, h.xf, h.nEvals, h.fitnessEvals, h.fitnessIters, h.calls, h.events, h.rk, h.ek, negRes]
    · rw [he]
      have ho' : env.dual.obj w'.st.evals x = .ok (-r) := by simp [Env.dual, h.evals, ho]
      have he' : evalTask env.dual.toTaskCfg w'.st x =
          (.ok (env.opt.mul r), NiaPy.record env.opt.flip { w'.st with evals := w'.st.evals + 1 } (env.opt.mul r),
            [(x, .ok (-r))]) := by
        have hopt : env.dual.opt = env.opt.flip := rfl
        simp [evalTask, hst, hs, ho', hopt, flip_mul_neg]
      rw [he']
      obtain ⟨h1, h2, h3⟩ := hrec (env.opt.mul r)
      refine ⟨rfl, ?_⟩
      exact ⟨by simp [h.iters], by simp [h.evals], h3, h1, h2, by simp [h.fitnessIters], by simp [h.calls, negRes],
        h.events, h.rk, h.ek⟩
  | nextIter =>
    refine ⟨rfl, ?_⟩
    simp only [stepOp]
    constructor <;> simp [nextIter, h.iters, h.evals, h.xf, h.nEvals, h.fitnessEvals, h.fitnessIters, h.calls, h.events, h.rk, h.ek]
  | look =>
    have hst := h.stopping env
    simp only [stepOp, hst, h.iters, h.evals]
    exact ⟨rfl, h⟩
  | int n =>
    simp only [stepOp]
    split
    · exact ⟨rfl, h⟩
    · refine ⟨by simp [Env.dual, h.rk], ?_⟩
      constructor <;> simp [h.iters, h.evals, h.xf, h.nEvals, h.fitnessEvals, h.fitnessIters, h.calls, h.events, h.rk, h.ek]
  | unif lo hi =>
    simp only [stepOp]
    split
    · exact ⟨rfl, h⟩
    · refine ⟨by simp [Env.dual, h.rk], ?_⟩
      constructor <;> simp [h.iters, h.evals, h.xf, h.nEvals, h.fitnessEvals, h.fitnessIters, h.calls, h.events, h.rk, h.ek]
  | dist d a b =>
    simp only [stepOp]
    split
    · exact ⟨rfl, h⟩
    · refine ⟨by simp [Env.dual, h.rk], ?_⟩
      constructor <;> simp [h.iters, h.evals, h.xf, h.nEvals, h.fitnessEvals, h.fitnessIters, h.calls, h.events, h.rk, h.ek]
  | repair b x =>
    cases b <;>
    · simp only [stepOp]
      refine ⟨by simp [Env.dual, h.rk, h.ek], ?_⟩
      constructor <;> simp [h.iters, h.evals, h.xf, h.nEvals, h.fitnessEvals, h.fitnessIters, h.calls, h.events, h.rk, h.ek]
  | fire i e =>
    simp only [stepOp]
    refine ⟨by rw [h.events]; rfl, ?_⟩
    constructor <;> simp [h.iters, h.evals, h.xf, h.nEvals, h.fitnessEvals, h.fitnessIters, h.calls, h.events, h.rk, h.ek]
  | _ =>
    simp only [stepOp]
    refine ⟨by simp [Env.dual, h.rk], ?_⟩
    constructor <;> simp [h.iters, h.evals, h.xf, h.nEvals, h.fitnessEvals, h.fitnessIters, h.calls, h.events, h.rk, h.ek]

/-- Mirrored worlds stay mirrored, whatever program is run. -/
theorem Mirror.run {w w' : World X} (env : Env X) (h : Mirror w w') (p : Prog X α) :
    (p.run env.dual w').1 = (p.run env w).1 ∧ Mirror (p.run env w).2 (p.run env.dual w').2 := by
  induction p generalizing w w' with
  | pure a => exact ⟨rfl, h⟩
  | throw e => exact ⟨rfl, h⟩
  | op o k ih =>
    obtain ⟨h1, h2⟩ := h.step env o
    simp only [Prog.run, h1]
    exact ih _ h2

/-- **C06.** Every client program (hence every algorithm, none of which reads `x_f`) behaves identically on the task
that maximizes `f` and on the task that minimizes `-f` (or the other way round): same result, same counters, same
stop decision, same evaluated points, same recorded evaluation numbers; `x_f` and the objective values are negated. -/
theorem C06_duality (env : Env X) (p : Prog X α) :
    (p.run env.dual (World.init env.dual.opt)).1 = (p.run env (World.init env.opt)).1 ∧
    Mirror (p.run env (World.init env.opt)).2 (p.run env.dual (World.init env.dual.opt)).2 ∧
    stoppingCondition env.dual.toTaskCfg (p.run env.dual (World.init env.dual.opt)).2.st =
      stoppingCondition env.toTaskCfg (p.run env (World.init env.opt)).2.st := by
  have h0 : Mirror (World.init env.opt : World X) (World.init env.dual.opt) := by
    constructor <;> simp [World.init, TaskSt.init, Env.dual, flip_mul]
  obtain ⟨h1, h2⟩ := h0.run env p
  exact ⟨h1, h2, h2.stopping env⟩

/-- Minimizing over 5, 7, 3 and maximizing the negated values. -/
example : (Ex.client.run (Ex.env Ex.idObj) (World.init .minimization)).2.st.xf = .fin 3 ∧
    (Ex.client.run (Ex.env Ex.idObj).dual (World.init .maximization)).2.st.xf = .fin (-3) := by decide +kernel

end NiaPy
