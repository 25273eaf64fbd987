import Verif.Alg
import Verif.AlgProps
import Verif.TaskProps
import Verif.PopTools
import Verif.Wp

/-!
# Runs with a larger budget

A run with a larger budget (more evaluations, more iterations, or a harder cutoff value) begins like the run with the smaller one: the points evaluated in
the shorter run are the first ones evaluated in the longer run. This holds of programs that do not read the limits they are run with: `Prog.Deaf`.
-/

namespace NiaPy
variable {X α β γ σ : Type}

/-- Two views of a task that may differ in `max_evals` (unless `ke`) and `max_iters` (unless `ki`) only. -/
def TaskView.agree (ke ki : Bool) (v v' : TaskView) : Prop :=
  v.iters = v'.iters ∧ v.evals = v'.evals ∧ v.stopped = v'.stopped ∧ (ke = true → v.maxEvals = v'.maxEvals) ∧ (ki = true → v.maxIters = v'.maxIters)

/-- The program does the same whatever `task.max_evals` (unless `ke`) and `task.max_iters` (unless `ki`) are. -/
def Prog.Deaf (ke ki : Bool) : Prog X α → Prop
  | .pure _ => True
  | .throw _ => True
  | .op .look k => (∀ v v' : TaskView, v.agree ke ki v' → k (.ok v) = k (.ok v')) ∧ ∀ r, (k r).Deaf ke ki
  | .op _ k => ∀ r, (k r).Deaf ke ki

variable {ke ki : Bool}

namespace Prog.Deaf

theorem of_forall {o : Op X} {k : Except PyErr o.Ret → Prog X α} (ho : o ≠ .look) (h : ∀ r, (k r).Deaf ke ki) : (Prog.op o k).Deaf ke ki := by
  cases o <;> first | exact h | exact absurd rfl ho

theorem next_of {o : Op X} {k : Except PyErr o.Ret → Prog X α} (h : (Prog.op o k).Deaf ke ki) (r : Except PyErr o.Ret) : (k r).Deaf ke ki := by
  cases o <;> first | exact h r | exact h.2 r

theorem bind {p : Prog X α} {f : α → Prog X β} (hp : p.Deaf ke ki) (hf : ∀ a, (f a).Deaf ke ki) : (p.bind f).Deaf ke ki := by
  induction p with
  | pure a => exact hf a
  | throw e => trivial
  | op o k ih =>
    cases o <;> first
      | exact fun r => ih r (hp r)
      | exact ⟨fun v v' h => congrArg (fun q => Prog.bind q f) (hp.1 v v' h), fun r => ih r (hp.2 r)⟩

theorem bind' {p : Prog X α} {f : α → Prog X β} (hp : p.Deaf ke ki) (hf : ∀ a, (f a).Deaf ke ki) : (p >>= f).Deaf ke ki := bind hp hf
theorem pure' {a : α} : (Pure.pure a : Prog X α).Deaf ke ki := trivial
theorem throw' {e : PyErr} : (.throw e : Prog X α).Deaf ke ki := trivial
theorem ofExcept {r : Except PyErr α} : (Prog.ofExcept r : Prog X α).Deaf ke ki := by cases r <;> trivial
theorem lift {o : Op X} (ho : o ≠ .look) : (Prog.lift o).Deaf ke ki := of_forall ho fun _ => ofExcept
theorem eval {x : X} : (Prog.eval x).Deaf ke ki := lift nofun
theorem next : (Prog.next : Prog X Unit).Deaf ke ki := lift nofun
theorem rand : (Prog.rand : Prog X Fl).Deaf ke ki := lift nofun
theorem unif {a b : Fl} : (Prog.unif a b : Prog X Fl).Deaf ke ki := lift nofun
theorem dist {d : Dist} {a b : Fl} : (Prog.dist d a b : Prog X Fl).Deaf ke ki := lift nofun
theorem norm {a b : Fl} : (Prog.norm a b : Prog X Fl).Deaf ke ki := lift nofun
theorem int {n : ℕ} : (Prog.int n : Prog X ℕ).Deaf ke ki := lift nofun
theorem perm {n : ℕ} : (Prog.perm n : Prog X (List ℕ)).Deaf ke ki := lift nofun
theorem argsort {l : List Fl} : (Prog.argsort l : Prog X (List ℕ)).Deaf ke ki := lift nofun
theorem repair {x : X} {s : Bool} : (Prog.repair x s : Prog X X).Deaf ke ki := lift nofun
theorem fire {i : ℕ} {e : Event X} : (Prog.fire i e).Deaf ke ki := lift nofun

theorem look {f : TaskView → Prog X β} (he : ∀ v v' : TaskView, v.agree ke ki v' → f v = f v') (hf : ∀ v, (f v).Deaf ke ki) : (Prog.look >>= f).Deaf ke ki :=
  ⟨he, fun r => by
    cases r with
    | error e => trivial
    | ok v => exact hf v⟩

theorem tabM {n : ℕ} {f : Fin n → Prog X α} (h : ∀ i, (f i).Deaf ke ki) : (NiaPy.tabM n f).Deaf ke ki := by
  induction n with
  | zero => trivial
  | succ n ih => exact bind (h 0) fun a => bind (ih fun i => h i.succ) fun r => trivial

theorem mapM' {l : List β} {f : β → Prog X α} (h : ∀ b ∈ l, (f b).Deaf ke ki) : (NiaPy.mapM' l f).Deaf ke ki := by
  induction l with
  | nil => trivial
  | cons b l ih => exact bind (h b List.mem_cons_self) fun a => bind (ih fun i hi => h i (List.mem_cons_of_mem _ hi)) fun r => trivial

theorem forFin {n : ℕ} {f : Fin n → σ → Prog X σ} {s : σ} (h : ∀ i s, (f i s).Deaf ke ki) : (NiaPy.forFin n f s).Deaf ke ki := by
  induction n generalizing s with
  | zero => trivial
  | succ n ih => exact bind (h 0 s) fun a => ih fun i s => h i.succ s

theorem forList {l : List β} {f : β → σ → Prog X σ} {s : σ} (h : ∀ i s, (f i s).Deaf ke ki) : (NiaPy.forList l f s).Deaf ke ki := by
  induction l generalizing s with
  | nil => trivial
  | cons b l ih => exact bind (h b s) fun a => ih

theorem forList_mem {l : List β} {f : β → σ → Prog X σ} {s : σ} (h : ∀ i ∈ l, ∀ s, (f i s).Deaf ke ki) : (NiaPy.forList l f s).Deaf ke ki := by
  induction l generalizing s with
  | nil => trivial
  | cons b l ih => exact bind (h b List.mem_cons_self s) fun a => ih fun i hi => h i (List.mem_cons_of_mem _ hi)

theorem intFin {n : ℕ} : (NiaPy.intFin n : Prog X (Fin n)).Deaf ke ki := bind int fun k => by split <;> trivial

theorem mono {p : Prog X α} {ke' ki' : Bool} (h : p.Deaf ke ki) (he : ke = true → ke' = true) (hi : ki = true → ki' = true) : p.Deaf ke' ki' := by
  induction p with
  | pure a => trivial
  | throw e => trivial
  | op o k ih =>
    cases o <;> first
      | exact fun r => ih r (h r)
      | exact ⟨fun v v' hv => h.1 v v' ⟨hv.1, hv.2.1, hv.2.2.1, fun h => hv.2.2.2.1 (he h), fun h => hv.2.2.2.2 (hi h)⟩, fun r => ih r (h.2 r)⟩

end Prog.Deaf

/-- Equality of what follows two views that agree. -/
macro "deaf_look" : tactic => `(tactic| (
  rintro ⟨v1, v2, v3, v4, v5⟩ ⟨u1, u2, u3, u4, u5⟩ ⟨h1, h2, h3, h4, h5⟩
  dsimp only at h1 h2 h3 h4 h5
  subst h1 h2 h3
  first
    | rfl
    | (have h4 := h4 rfl; subst h4; rfl)
    | (have h5 := h5 rfl; subst h5; rfl)
    | (have h4 := h4 rfl; have h5 := h5 rfl; subst h4 h5; rfl)))

open Lean Elab Tactic Meta in
/-- One step of `deaf`, chosen by the program in the goal: the rule for sequences, for what is read from the task, the lemma `f_deaf` or `Prog.Deaf.f` about a
function `f`, an assumption about it, its definition, or the branches of a case distinction. -/
elab "deaf_go" : tactic => do
  let g ← getMainGoal
  let t ← instantiateMVars (← g.getType)
  if t.isForall then
    replaceMainGoal [(← g.intro1).2]
    return
  unless t.isAppOfArity ``Prog.Deaf 5 do throwError "not about a program"
  let p := t.appArg!
  if p.isLet || p.isMData || (p.isApp && p.getAppFn.isLambda) then
    let p' := match p with
      | .letE _ _ v b _ => b.instantiate1 v
      | .mdata _ b => b
      | _ => p.headBeta
    replaceMainGoal [← g.replaceTargetDefEq (mkApp t.appFn! p')]
    return
  match p.getAppFn with
  | .const c _ =>
    if c == ``Bind.bind then
      if p.getAppArgs.any fun a => a.isAppOf ``Prog.look then
        evalTactic (← `(tactic| refine Prog.Deaf.look (by deaf_look) fun _ => ?_))
      else evalTactic (← `(tactic| apply Prog.Deaf.bind'))
    else if c == ``Pure.pure then evalTactic (← `(tactic| exact Prog.Deaf.pure'))
    else if c == ``Prog.throw then evalTactic (← `(tactic| exact Prog.Deaf.throw'))
    else if c == ``ite || c == ``dite || (← isMatcher c) then evalTactic (← `(tactic| first | split | dsimp only))
    else
      let env ← getEnv
      for n in [c.appendAfter "_deaf", (``Prog.Deaf).str c.getString!] do
        if env.contains n then
          let saved ← saveState
          try
            evalTactic (← `(tactic| apply $(mkIdent (`_root_ ++ n))))
            return
          catch _ => saved.restore
      let saved ← saveState
      try
        for d in ← g.withContext getLCtx do
          let h ← instantiateMVars d.type
          if !d.isImplementationDetail && h.getForallBody.getAppFn.isConstOf ``Prog.Deaf && h.getForallBody.appArg!.getAppFn.isConstOf c then
            replaceMainGoal (← g.apply d.toExpr)
            return
        throwError "no assumption"
      catch _ => saved.restore
      let some p' ← g.withContext (unfoldDefinition? p) | throwError "not a definition"
      let p' ← if env.isProjectionFn c then g.withContext (whnfCore p') else pure p'.headBeta
      replaceMainGoal [← g.replaceTargetDefEq (mkApp t.appFn! p')]
  | _ => throwError "not a defined program"

/-- For programs that are assumptions, to be extended with `macro_rules`. -/
syntax "deaf_step" : tactic
macro_rules | `(tactic| deaf_step) => `(tactic| assumption)

/-- Proves that a program does not depend on the limits. -/
macro "deaf" : tactic => `(tactic| repeat' first | deaf_go | deaf_step)

namespace Prog.Deaf

theorem permIdx {n : ℕ} : (NiaPy.permIdx n : Prog X (Fin n → Fin n)).Deaf ke ki := by unfold NiaPy.permIdx; deaf
theorem sortIdx {n : ℕ} {fs : Fin n → Fl} : (NiaPy.sortIdx fs : Prog X (Fin n → Fin n)).Deaf ke ki := by unfold NiaPy.sortIdx; deaf
theorem scaleIdx {n : ℕ} : (NiaPy.scaleIdx n : Prog X (Fin n)).Deaf ke ki := by unfold NiaPy.scaleIdx; deaf
theorem choiceFin {n k : ℕ} : (NiaPy.choiceFin n k : Prog X (Fin k → Fin n)).Deaf ke ki := by unfold NiaPy.choiceFin; deaf
theorem choiceRep {n k : ℕ} : (NiaPy.choiceRep n k : Prog X (Fin k → Fin n)).Deaf ke ki := by unfold NiaPy.choiceRep; deaf
theorem choiceOther {n k : ℕ} {ic : Fin n} : (NiaPy.choiceOther n k ic : Prog X (Fin k → Fin n)).Deaf ke ki := by unfold NiaPy.choiceOther; deaf
theorem randVec {n : ℕ} : (NiaPy.randVec n : Prog X (Vec n)).Deaf ke ki := by unfold NiaPy.randVec; deaf
theorem normVec {n : ℕ} {a b : Fl} : (NiaPy.normVec n a b : Prog X (Vec n)).Deaf ke ki := by unfold NiaPy.normVec; deaf
theorem unifVec {n : ℕ} {a b : Vec n} : (NiaPy.unifVec a b : Prog X (Vec n)).Deaf ke ki := by unfold NiaPy.unifVec; deaf
theorem repairRows {n : ℕ} {pop : Fin n → X} {s : Bool} : (NiaPy.repairRows pop s).Deaf ke ki := by unfold NiaPy.repairRows; deaf
theorem levyVec [Arith] {n : ℕ} {a : Fl} : (NiaPy.levyVec n a : Prog X (Vec n)).Deaf ke ki := by unfold NiaPy.levyVec; deaf
theorem evalRows {n : ℕ} {pop : Fin n → X} : (NiaPy.evalRows pop).Deaf ke ki := by unfold NiaPy.evalRows; deaf
theorem evalRecs {l : List X} : (NiaPy.evalRecs l).Deaf ke ki := by unfold NiaPy.evalRecs; deaf
theorem moveEval {n : ℕ} {m : Fin n → Prog X X} (hm : ∀ i, (m i).Deaf ke ki) : (NiaPy.moveEval m).Deaf ke ki := by
  unfold NiaPy.moveEval
  exact tabM fun i => bind' (hm i) fun y => by deaf
theorem argminRec {val : α → Fl} {l : List α} : (NiaPy.argminRec val l : Prog X α).Deaf ke ki := by unfold NiaPy.argminRec; deaf
theorem argminIdx {n : ℕ} {fs : Fin n → Fl} : (NiaPy.argminIdx fs : Prog X (Fin n)).Deaf ke ki := by unfold NiaPy.argminIdx; deaf
theorem argmaxIdx {n : ℕ} {fs : Fin n → Fl} : (NiaPy.argmaxIdx fs : Prog X (Fin n)).Deaf ke ki := by unfold NiaPy.argmaxIdx; deaf
theorem sortRecs {val : α → Fl} {l : List α} : (NiaPy.sortRecs val l : Prog X (List α)).Deaf ke ki := by unfold NiaPy.sortRecs; deaf
theorem getBest {pop : List X} {fit : List Fl} {xb : X} {fxb : Fl} : (Prog.getBest pop fit xb fxb).Deaf ke ki := by unfold Prog.getBest; deaf
theorem rangeLoop {n a b : ℕ} {f : Fin n → σ → Prog X σ} {s : σ} (h : ∀ i s, (f i s).Deaf ke ki) : (NiaPy.rangeLoop n a b f s).Deaf ke ki := by
  unfold NiaPy.rangeLoop
  exact forFin fun i s => by split; exacts [h _ s, throw']

section
variable {D : ℕ}
theorem defaultNumpyInit {B : Box D} {N : ℕ} : (NiaPy.defaultNumpyInit B N).Deaf ke ki := by unfold NiaPy.defaultNumpyInit; deaf
theorem evaluate {i : Indiv D} : (Indiv.evaluate i).Deaf ke ki := by unfold Indiv.evaluate; deaf
theorem random {opt : OptType} {B : Box D} : (Indiv.random opt B).Deaf ke ki := by unfold Indiv.random; deaf
theorem defaultIndividualInit {opt : OptType} {B : Box D} {N : ℕ} : (NiaPy.defaultIndividualInit opt B N).Deaf ke ki := by
  unfold NiaPy.defaultIndividualInit; deaf
end

theorem fireAll {ncb : ℕ} {e : Event X} : (NiaPy.fireAll ncb e).Deaf ke ki := by
  unfold NiaPy.fireAll
  repeat' first | deaf_go

end Prog.Deaf

/-! ### Tasks that stop later -/

/-- `env'` is `env` with larger limits or a harder cutoff value; `max_evals` is the same if `ke`, `max_iters` if `ki`. -/
structure Longer (ke ki : Bool) (env env' : Env X) : Prop where
  obj : env'.obj = env.obj
  opt : env'.opt = env.opt
  repairFn : env'.repairFn = env.repairFn
  rng : env'.rng = env.rng
  entropy : env'.entropy = env.entropy
  callback : env'.callback = env.callback
  keepEvals : ke = true → env'.maxEvals = env.maxEvals
  keepIters : ki = true → env'.maxIters = env.maxIters
  maxEvals : ∀ n, reached n env'.maxEvals = true → reached n env.maxEvals = true
  maxIters : ∀ n, reached n env'.maxIters = true → reached n env.maxIters = true
  cutoff : ∀ v, env.opt.mul v ≤ env.opt.mul env'.cutoff → env.opt.mul v ≤ env.opt.mul env.cutoff

variable {env env' : Env X}

theorem Longer.stops (h : Longer ke ki env env') {s : TaskSt} (hs : stoppingCondition env.toTaskCfg s = false) : stoppingCondition env'.toTaskCfg s = false := by
  simp only [stoppingCondition, Bool.or_eq_false_iff, decide_eq_false_iff_not] at hs ⊢
  refine ⟨⟨?_, ?_⟩, fun hc => hs.2 (h.cutoff _ (by rwa [h.opt] at hc))⟩
  · by_contra hc
    rw [Bool.not_eq_false] at hc
    rw [h.maxEvals _ hc] at hs
    exact absurd hs.1.1 (by simp)
  · by_contra hc
    rw [Bool.not_eq_false] at hc
    rw [h.maxIters _ hc] at hs
    exact absurd hs.1.2 (by simp)

/-- While the shorter run goes on, operations do the same. -/
theorem Longer.step (h : Longer ke ki env env') {w : World X} (hs : stoppingCondition env.toTaskCfg w.st = false) (o : Op X) :
    (stepOp env' w o).2 = (stepOp env w o).2 ∧ (o ≠ .look → (stepOp env' w o).1 = (stepOp env w o).1) := by
  have hs' := h.stops hs
  cases o with
  | eval x => simp only [stepOp, evalTask, hs, hs', h.obj, h.opt]; exact ⟨by trivial, fun _ => by trivial⟩
  | nextIter => exact ⟨rfl, fun _ => rfl⟩
  | look => exact ⟨rfl, fun hne => absurd rfl hne⟩
  | repair b x => cases b <;> simp only [stepOp, h.repairFn, h.rng, h.entropy] <;> exact ⟨by trivial, fun _ => by trivial⟩
  | rand => simp only [stepOp, h.rng]; exact ⟨by trivial, fun _ => by trivial⟩
  | unif lo hi => simp only [stepOp, h.rng]; exact ⟨by trivial, fun _ => by trivial⟩
  | dist d a b => simp only [stepOp, h.rng]; exact ⟨by trivial, fun _ => by trivial⟩
  | int n => simp only [stepOp, h.rng]; exact ⟨by trivial, fun _ => by trivial⟩
  | perm n => simp only [stepOp, h.rng]; exact ⟨by trivial, fun _ => by trivial⟩
  | argsort l => simp only [stepOp, h.rng]; exact ⟨by trivial, fun _ => by trivial⟩
  | fire i e => simp only [stepOp, h.callback]; exact ⟨by trivial, fun _ => by trivial⟩

/-- `w'` is what `w` may become: further calls of the objective and improvements after those made so far. -/
structure Grows (w w' : World X) : Prop where
  calls : w.calls <+: w'.calls
  nEvals : w.st.nEvals <+: w'.st.nEvals
  fitness : w.st.fitnessEvals <+: w'.st.fitnessEvals

theorem Grows.refl (w : World X) : Grows w w := ⟨List.prefix_rfl, List.prefix_rfl, List.prefix_rfl⟩

theorem record_prefix (opt : OptType) (s : TaskSt) (v : Fl) : s.nEvals <+: (record opt s v).nEvals ∧ s.fitnessEvals <+: (record opt s v).fitnessEvals := by
  unfold record
  split
  · exact ⟨List.prefix_append _ _, List.prefix_append _ _⟩
  · exact ⟨List.prefix_rfl, List.prefix_rfl⟩

theorem evalTask_prefix (c : TaskCfg X) (s : TaskSt) (x : X) :
    s.nEvals <+: (evalTask c s x).2.1.nEvals ∧ s.fitnessEvals <+: (evalTask c s x).2.1.fitnessEvals := by
  unfold evalTask
  split
  · exact ⟨List.prefix_rfl, List.prefix_rfl⟩
  · dsimp only
    split
    · exact ⟨List.prefix_rfl, List.prefix_rfl⟩
    · exact record_prefix c.opt { s with evals := s.evals + 1 } _

theorem Grows.run (env : Env X) (p : Prog X α) (w : World X) : Grows w (p.run env w).2 := by
  have h := run_relation env (fun a b => a.st.nEvals <+: b.st.nEvals ∧ a.st.fitnessEvals <+: b.st.fitnessEvals) (fun _ => ⟨List.prefix_rfl, List.prefix_rfl⟩)
    (fun _ _ _ h1 h2 => ⟨h1.1.trans h2.1, h1.2.trans h2.2⟩) (fun w o => by
      cases o with
      | eval x => exact evalTask_prefix env.toTaskCfg w.st x
      | repair b x => cases b <;> exact ⟨List.prefix_rfl, List.prefix_rfl⟩
      | _ => simp only [stepOp]; (try split) <;> exact ⟨List.prefix_rfl, List.prefix_rfl⟩) p w
  exact ⟨calls_prefix env p w, h.1, h.2⟩

theorem Grows.stopped {env : Env X} {w : World X} (h : stoppingCondition env.toTaskCfg w.st = true) (p : Prog X α) {w' : World X} (hw : Grows w w') :
    Grows (p.run env w).2 w' := by
  have h2 := (C02_stopped_stays env w h p).2
  have hc : (p.run env w).2.calls = w.calls := congrArg (·.1) h2
  have hn : (p.run env w).2.st.nEvals = w.st.nEvals := congrArg (·.2.2.2.1) h2
  have hf : (p.run env w).2.st.fitnessEvals = w.st.fitnessEvals := congrArg (·.2.2.2.2) h2
  exact ⟨hc ▸ hw.calls, hn ▸ hw.nEvals, hf ▸ hw.fitness⟩

/-- Either the shorter run stops within the program, and the longer run has made the same calls of the objective (and perhaps more); or both do the same. -/
theorem Longer.run (h : Longer ke ki env env') {p : Prog X α} (hp : p.Deaf ke ki) {w : World X} (hs : stoppingCondition env.toTaskCfg w.st = false) :
    (stoppingCondition env.toTaskCfg (p.run env w).2.st = true ∧ Grows (p.run env w).2 (p.run env' w).2) ∨
      (stoppingCondition env.toTaskCfg (p.run env w).2.st = false ∧ p.run env' w = p.run env w) := by
  induction p generalizing w with
  | pure a => exact .inr ⟨hs, rfl⟩
  | throw e => exact .inr ⟨hs, rfl⟩
  | op o k ih =>
    have hst := h.step hs o
    show (_ ∧ Grows ((k (stepOp env w o).1).run env (stepOp env w o).2).2 ((k (stepOp env' w o).1).run env' (stepOp env' w o).2).2) ∨
      (_ ∧ (k (stepOp env' w o).1).run env' (stepOp env' w o).2 = (k (stepOp env w o).1).run env (stepOp env w o).2)
    have hk : k (stepOp env' w o).1 = k (stepOp env w o).1 := by
      by_cases ho : o = .look
      · subst ho
        exact hp.1 _ _ ⟨rfl, rfl, by rw [h.stops hs, hs], h.keepEvals, h.keepIters⟩
      · rw [hst.2 ho]
    rw [hk, hst.1]
    cases hc : stoppingCondition env.toTaskCfg (stepOp env w o).2.st with
    | false => exact ih _ (hp.next_of _) hc
    | true => exact .inl ⟨(C02_stopped_stays env _ hc _).1, .stopped hc _ (.run _ _ _)⟩

/-- The algorithm does not depend on `task.max_evals` (unless `ke`), `task.max_iters` (unless `ki`). -/
structure Alg.Deaf (ke ki : Bool) (A : Alg X) : Prop where
  init : A.init.Deaf ke ki
  iter : ∀ s xb fxb, (A.iter s xb fxb).Deaf ke ki

theorem Alg.Deaf.mono {A : Alg X} {ke' ki' : Bool} (h : A.Deaf ke ki) (he : ke = true → ke' = true) (hi : ki = true → ki' = true) : A.Deaf ke' ki' :=
  ⟨h.init.mono he hi, fun s xb fxb => (h.iter s xb fxb).mono he hi⟩

theorem Alg.Deaf.body {A : Alg X} (h : A.Deaf ke ki) (ncb fuel : ℕ) : (A.body ncb fuel).Deaf ke ki := by
  have hloop : ∀ fuel s xb fxb, (A.loop ncb fuel s xb fxb).Deaf ke ki := by
    intro fuel
    induction fuel with
    | zero => exact fun _ _ _ => trivial
    | succ n ih =>
      intro s xb fxb
      refine .look (fun v v' hv => by rw [hv.2.2.1]) fun v => ?_
      split
      · exact .pure'
      · exact .bind' .fireAll fun _ => .bind' (h.iter _ _ _) fun r => .bind' .fireAll fun _ => .bind' .next fun _ => ih _ _ _
  exact .bind' .fireAll fun _ => .bind' h.init fun s => .bind' .ofExcept fun b => .bind' (hloop fuel _ _ _) fun r => .bind' .fireAll fun _ => .pure'

macro "deaf_alg" : tactic => `(tactic| refine ⟨by deaf, fun s xb fxb => by deaf⟩)

/-- The calls of the objective and the improvements recorded in a run are the first ones of the run with a larger budget. If the shorter run ends before its
budget is used up, both are the same run. -/
theorem Alg.Deaf.exec {A : Alg X} (hA : A.Deaf ke ki) (h : Longer ke ki env env') (main : Bool) (ncb fuel : ℕ) :
    Grows (A.exec env main ncb fuel).2 (A.exec env' main ncb fuel).2 ∧
      (stoppingCondition env.toTaskCfg (A.exec env main ncb fuel).2.st = true ∨ A.exec env' main ncb fuel = A.exec env main ncb fuel) := by
  rw [exec_eq, exec_eq]
  have hw : A.execBody env' ncb fuel = (A.body ncb fuel).run env' (World.init env.opt) := by rw [← h.opt]; rfl
  rw [hw, h.opt]
  cases hs : stoppingCondition env.toTaskCfg (World.init (X := X) env.opt).st with
  | true => exact ⟨.stopped hs _ (.run _ _ _), .inl (C02_stopped_stays env _ hs _).1⟩
  | false =>
    rcases h.run (hA.body ncb fuel) hs with ⟨h1, h2⟩ | ⟨h1, h2⟩
    · exact ⟨h2, .inl h1⟩
    · rw [h2]
      exact ⟨.refl _, .inr rfl⟩

/-- The best of more values is at least as good. -/
theorem BestOf.mono {opt : OptType} {vs vs' : List Fl} {b b' : Fl} (hv : ∀ v ∈ vs, v ∈ vs') (h : BestOf opt vs b) (h' : BestOf opt vs' b') :
    AtLeastAsGood opt b' b := by
  cases opt with
  | minimization =>
    rcases h.2.1 with hm | rfl
    · exact h'.2.2 _ (hv _ hm) h.1
    · exact Fl.le_pinf h'.1
  | maximization =>
    rcases h.2.1 with hm | rfl
    · exact h'.2.2 _ (hv _ hm) h.1
    · exact Fl.ninf_le h'.1

/-- More evaluations. -/
theorem Longer.evals {env : Env X} {m m' : Option ℕ} (hm : ∀ n, reached n m' = true → reached n m = true) (hc : env.maxEvals = m) :
    Longer false ki env { env with maxEvals := m' } :=
  ⟨rfl, rfl, rfl, rfl, rfl, rfl, nofun, fun _ => rfl, fun n h => hc ▸ hm n h, fun _ h => h, fun _ h => h⟩

/-- More iterations. -/
theorem Longer.iters {env : Env X} {m m' : Option ℕ} (hm : ∀ n, reached n m' = true → reached n m = true) (hc : env.maxIters = m) :
    Longer ke false env { env with maxIters := m' } :=
  ⟨rfl, rfl, rfl, rfl, rfl, rfl, fun _ => rfl, nofun, fun _ h => h, fun n h => hc ▸ hm n h, fun _ h => h⟩

theorem reached_mono {m m' : ℕ} (h : m ≤ m') (n : ℕ) : reached n (some m') = true → reached n (some m) = true := by
  simp only [reached, decide_eq_true_eq]
  exact h.trans

theorem reached_none (m : Option ℕ) (n : ℕ) : reached n none = true → reached n m = true := nofun

end NiaPy
