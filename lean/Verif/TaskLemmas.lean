import Verif.Spec

/-!
# Helper lemmas about tasks and programs (no property statements here)
-/

namespace NiaPy
variable {X α β : Type}

/-- An invariant of single operations is an invariant of programs. -/
theorem run_invariant (env : Env X) (I : World X → Prop)
    (hstep : ∀ w o, I w → I (stepOp env w o).2) (p : Prog X α) (w : World X) (h : I w) :
    I (p.run env w).2 := by
  induction p generalizing w with
  | pure a => exact h
  | throw e => exact h
  | op o k ih => exact ih _ _ (hstep w o h)

/-- A transitive, reflexive relation that every operation respects is respected by programs. -/
theorem run_relation (env : Env X) (R : World X → World X → Prop) (hrefl : ∀ w, R w w)
    (htrans : ∀ a b c, R a b → R b c → R a c) (hstep : ∀ w o, R w (stepOp env w o).2)
    (p : Prog X α) (w : World X) : R w (p.run env w).2 :=
  run_invariant env (fun w' => R w w') (fun w' o h => htrans _ _ _ h (hstep w' o)) p w (hrefl w)

/-- Case analysis on one evaluation. -/
theorem evalTask_cases (c : TaskCfg X) (s : TaskSt) (x : X) :
    (stoppingCondition c s = true ∧ evalTask c s x = (.ok .pinf, s, [])) ∨
    (stoppingCondition c s = false ∧ ∃ e, c.obj s.evals x = .error e ∧
      evalTask c s x = (.error e, { s with evals := s.evals + 1 }, [(x, .error e)])) ∨
    (stoppingCondition c s = false ∧ ∃ r, c.obj s.evals x = .ok r ∧
      evalTask c s x = (.ok (c.opt.mul r), record c.opt { s with evals := s.evals + 1 } (c.opt.mul r),
        [(x, .ok r)])) := by
  unfold evalTask
  cases hs : stoppingCondition c s
  · cases ho : c.obj s.evals x <;> simp
  · simp

@[simp] theorem record_evals (t : OptType) (s : TaskSt) (v : Fl) : (record t s v).evals = s.evals := by
  unfold record; split <;> rfl
@[simp] theorem record_iters (t : OptType) (s : TaskSt) (v : Fl) : (record t s v).iters = s.iters := by
  unfold record; split <;> rfl
@[simp] theorem record_fitnessIters (t : OptType) (s : TaskSt) (v : Fl) :
    (record t s v).fitnessIters = s.fitnessIters := by
  unfold record; split <;> rfl

/-- What one operation does to the task state: nothing, an evaluation, or the end of an iteration. -/
theorem stepOp_cases (env : Env X) (w : World X) (o : Op X) :
    ((stepOp env w o).2.st = w.st ∧ (stepOp env w o).2.calls = w.calls) ∨
    ((stepOp env w o).2.st = nextIter w.st ∧ (stepOp env w o).2.calls = w.calls) ∨
    (∃ x, o = .eval x ∧ (stepOp env w o).2.st = (evalTask env.toTaskCfg w.st x).2.1 ∧
      (stepOp env w o).2.calls = w.calls ++ (evalTask env.toTaskCfg w.st x).2.2) := by
  cases o with
  | eval x => right; right; exact ⟨x, rfl, rfl, rfl⟩
  | nextIter => right; left; exact ⟨rfl, rfl⟩
  | look => left; exact ⟨rfl, rfl⟩
  | repair b x => left; cases b <;> exact ⟨rfl, rfl⟩
  | rand => left; exact ⟨rfl, rfl⟩
  | unif lo hi => left; simp only [stepOp]; split <;> exact ⟨rfl, rfl⟩
  | dist d a b => left; simp only [stepOp]; split <;> exact ⟨rfl, rfl⟩
  | int n => left; simp only [stepOp]; split <;> exact ⟨rfl, rfl⟩
  | perm n => left; exact ⟨rfl, rfl⟩
  | argsort l => left; exact ⟨rfl, rfl⟩
  | fire i e => left; exact ⟨rfl, rfl⟩

@[simp] theorem values_nil : values ([] : List (X × Except PyErr Fl)) = [] := rfl
@[simp] theorem values_append (a b : List (X × Except PyErr Fl)) : values (a ++ b) = values a ++ values b := by
  simp [values]
@[simp] theorem values_ok (x : X) (r : Fl) : values [(x, .ok r)] = [r] := rfl
@[simp] theorem values_error (x : X) (e : PyErr) : values [(x, .error e)] = [] := rfl

theorem mem_values {calls : List (X × Except PyErr Fl)} {r : Fl} :
    r ∈ values calls ↔ ∃ x, (x, Except.ok r) ∈ calls := by
  simp only [values, List.mem_filterMap]
  constructor
  · rintro ⟨⟨x, c⟩, hm, hc⟩
    cases c with
    | ok r' => simp at hc; subst hc; exact ⟨x, hm⟩
    | error e => simp at hc
  · rintro ⟨x, hm⟩; exact ⟨_, hm, rfl⟩

end NiaPy
