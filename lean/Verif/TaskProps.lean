import Verif.TaskLemmas
import Verif.Example

/-!
# Properties of `Task` for every client program

C01 budget, C02 stopped tasks are inert, C03 `x_f` is the best value, C04 monotone history, C06 duality of
maximization and minimization, C07 cutoff, C08 raising objectives. Each statement quantifies over every environment
(objective, limits, generators, callbacks) and every program of the API.
-/

namespace NiaPy
variable {X α β : Type}

/-! ## C01 -/

/-- **C01.** From a fresh task, whatever a client program does, the number of objective calls equals `task.evals`
and never exceeds `max_evals`. -/
theorem C01_budget (env : Env X) (p : Prog X α) :
    (p.run env (World.init env.opt)).2.calls.length = (p.run env (World.init env.opt)).2.st.evals ∧
    ∀ m, env.maxEvals = some m → (p.run env (World.init env.opt)).2.calls.length ≤ m := by
  refine run_invariant env
    (fun w => w.calls.length = w.st.evals ∧ ∀ m, env.maxEvals = some m → w.calls.length ≤ m) ?_ p _ ?_
  · rintro w o ⟨h1, h2⟩
    rcases stepOp_cases env w o with ⟨hs, hc⟩ | ⟨hs, hc⟩ | ⟨x, -, hs, hc⟩
    · rw [hs, hc]; exact ⟨h1, h2⟩
    · rw [hs, hc]; exact ⟨h1, h2⟩
    · rw [hs, hc]
      have key : ∀ m, env.maxEvals = some m → stoppingCondition env.toTaskCfg w.st = false → w.st.evals < m := by
        intro m hm hst
        simp [stoppingCondition, reached, hm] at hst
        exact hst.1.1
      rcases evalTask_cases env.toTaskCfg w.st x with ⟨_, he⟩ | ⟨hst, e, _, he⟩ | ⟨hst, r, _, he⟩
      · rw [he]; simpa using ⟨h1, h2⟩
      · rw [he]
        refine ⟨by simp [h1], fun m hm => ?_⟩
        have := key m hm hst
        simp; omega
      · rw [he]
        refine ⟨by simp [h1], fun m hm => ?_⟩
        have := key m hm hst
        simp; omega
  · exact ⟨rfl, fun m _ => Nat.zero_le m⟩

/-- A budget of two evaluations: the third `eval` of the client does not reach the objective. -/
example : (Ex.client.run (Ex.env Ex.idObj (me := some 2)) (World.init .minimization)).2.calls =
    [(5, .ok (.fin 5)), (7, .ok (.fin 7))] := by rfl

/-- A client that catches an exception of the objective: the raising call is counted. -/
example : (Ex.catching.run (Ex.env Ex.raising (me := some 3)) (World.init .minimization)).2.st.evals = 3 := by rfl

/-! ## C02 -/

/-- The state of the counters and records that a stopped task must not change. -/
def frozen (w : World X) := (w.calls, w.st.evals, w.st.xf, w.st.nEvals, w.st.fitnessEvals)

/-- **C02 (persistence).** If the stopping condition holds, then after any further program it still holds, the
objective has not been called and the evaluation counter, best value and improvement record are unchanged. -/
theorem C02_stopped_stays (env : Env X) (w : World X) (h : stoppingCondition env.toTaskCfg w.st = true)
    (p : Prog X α) :
    stoppingCondition env.toTaskCfg (p.run env w).2.st = true ∧ frozen (p.run env w).2 = frozen w := by
  refine run_invariant env
    (fun w' => stoppingCondition env.toTaskCfg w'.st = true ∧ frozen w' = frozen w) ?_ p _ ⟨h, rfl⟩
  rintro w' o ⟨h1, h2⟩
  rw [← h2]
  rcases stepOp_cases env w' o with ⟨hs, hc⟩ | ⟨hs, hc⟩ | ⟨x, -, hs, hc⟩
  · simp only [frozen, hs, hc]; exact ⟨h1, trivial⟩
  · simp only [frozen, hs, hc]
    refine ⟨?_, rfl⟩
    unfold stoppingCondition at h1 ⊢
    simp only [Bool.or_eq_true] at h1 ⊢
    rcases h1 with (h1 | h1) | h1
    · exact Or.inl (Or.inl h1)
    · refine Or.inl (Or.inr ?_)
      cases hm : env.maxIters with
      | none => simp [reached, hm] at h1
      | some m =>
        simp [reached, hm] at h1
        change reached (w'.st.iters + 1) (some m) = true
        simp only [reached, decide_eq_true_eq]; omega
    · exact Or.inr h1
  · rcases evalTask_cases env.toTaskCfg w'.st x with ⟨_, he⟩ | ⟨hst, _⟩ | ⟨hst, _⟩
    · simp only [frozen, hs, hc, he, List.append_nil]; exact ⟨h1, trivial⟩
    · simp [h1] at hst
    · simp [h1] at hst

/-- **C02 (eval of a stopped task).** It returns `+inf` and changes nothing. -/
theorem C02_eval_stopped (env : Env X) (w : World X) (h : stoppingCondition env.toTaskCfg w.st = true) (x : X) :
    (Prog.eval x).run env w = (.ok .pinf, w) := by
  simp [Prog.run_eval, evalTask, h]

/-- A stopped task: after two of two evaluations. -/
example : stoppingCondition (Ex.env Ex.idObj (me := some 2)).toTaskCfg
    (Ex.client.run (Ex.env Ex.idObj (me := some 2)) (World.init .minimization)).2.st = true := by decide +kernel

/-! ## C03 -/

theorem bestOf_nil (t : OptType) : BestOf t [] (t.mul .pinf) := by
  cases t <;> simp [BestOf, OptType.mul]

theorem BestOf.good {t : OptType} {vs : List Fl} {b r : Fl} (h : BestOf t vs b) (hr : r ∈ vs) (hn : r ≠ .nan) :
    AtLeastAsGood t b r := by
  cases t <;> exact h.2.2 r hr hn

/-- One step of C03: recording a value updates the best value. -/
theorem bestOf_record (t : OptType) (s : TaskSt) (vs : List Fl) (r : Fl) (h : BestOf t vs s.xf) :
    BestOf t (vs ++ [r]) (record t s (t.mul r)).xf := by
  cases t with
  | minimization =>
    obtain ⟨h0, h1, h2⟩ := h
    rw [record, apply_ite TaskSt.xf]; simp only [OptType.mul]
    change BestOf .minimization (vs ++ [r]) (if r < s.xf then r else s.xf)
    by_cases hlt : r < s.xf
    · rw [if_pos hlt]
      have hr : r ≠ .nan := Fl.ne_nan_of_lt_left hlt
      refine ⟨hr, by simp, fun v hv hn => ?_⟩
      rcases List.mem_append.1 hv with hv | hv
      · exact Fl.le_of_lt (Fl.lt_of_lt_of_le hlt (h2 v hv hn))
      · simp at hv; subst hv; exact Fl.le_refl hn
    · rw [if_neg hlt]
      refine ⟨h0, ?_, fun v hv hn => ?_⟩
      · rcases h1 with h1 | h1
        · left; simp [h1]
        · right; exact h1
      · rcases List.mem_append.1 hv with hv | hv
        · exact h2 v hv hn
        · simp at hv; subst hv; exact Fl.le_of_not_lt hn h0 hlt
  | maximization =>
    obtain ⟨h0, h1, h2⟩ := h
    rw [record, apply_ite TaskSt.xf]; simp only [OptType.mul]
    change BestOf .maximization (vs ++ [r]) (if -r < -s.xf then - -r else s.xf)
    by_cases hlt : s.xf < r
    · rw [if_pos ((Fl.neg_lt_neg _ _).2 hlt)]
      have hr : r ≠ .nan := Fl.ne_nan_of_lt_right hlt
      simp only [Fl.neg_neg]
      refine ⟨hr, by simp, fun v hv hn => ?_⟩
      rcases List.mem_append.1 hv with hv | hv
      · exact Fl.le_of_lt (Fl.lt_of_le_of_lt (h2 v hv hn) hlt)
      · simp at hv; subst hv; exact Fl.le_refl hn
    · rw [if_neg (fun h => hlt ((Fl.neg_lt_neg _ _).1 h))]
      refine ⟨h0, ?_, fun v hv hn => ?_⟩
      · rcases h1 with h1 | h1
        · left; simp [h1]
        · right; exact h1
      · rcases List.mem_append.1 hv with hv | hv
        · exact h2 v hv hn
        · simp at hv; subst hv; exact Fl.le_of_not_lt h0 hn hlt

/-- `x_f` is the best value of the log: preserved by every program. -/
theorem bestOf_run (env : Env X) (p : Prog X α) (w : World X) (h : BestOf env.opt (values w.calls) w.st.xf) :
    BestOf env.opt (values (p.run env w).2.calls) (p.run env w).2.st.xf := by
  refine run_invariant env (fun w => BestOf env.opt (values w.calls) w.st.xf) ?_ p w h
  intro w o h
  rcases stepOp_cases env w o with ⟨hs, hc⟩ | ⟨hs, hc⟩ | ⟨x, -, hs, hc⟩
  · rw [hs, hc]; exact h
  · rw [hs, hc]; exact h
  · rw [hs, hc]
    rcases evalTask_cases env.toTaskCfg w.st x with ⟨_, he⟩ | ⟨_, e, _, he⟩ | ⟨_, r, _, he⟩
    · rw [he]; simpa using h
    · rw [he]; simpa using h
    · rw [he]; simpa using bestOf_record env.opt { w.st with evals := w.st.evals + 1 } _ r h

/-- **C03.** After any program from a fresh task, `x_f` is the best objective value in the log of calls (NaN
ignored; `±inf` if there is none). -/
theorem C03_xf_is_best (env : Env X) (p : Prog X α) :
    BestOf env.opt (values (p.run env (World.init env.opt)).2.calls) (p.run env (World.init env.opt)).2.st.xf :=
  bestOf_run env p _ (bestOf_nil env.opt)

/-- The best of 5, 7, 3, minimizing and maximizing. -/
example : (Ex.client.run (Ex.env Ex.idObj) (World.init .minimization)).2.st.xf = .fin 3 ∧
    (Ex.client.run (Ex.env Ex.idObj .maximization) (World.init .maximization)).2.st.xf = .fin 7 := by decide +kernel

/-! ## C04 -/

theorem record_better (t : OptType) (s : TaskSt) (v : Fl) (h : s.xf ≠ .nan) :
    AtLeastAsGood t (record t s v).xf s.xf := by
  unfold record
  split
  · rename_i hlt
    cases t with
    | minimization => exact Fl.le_of_lt hlt
    | maximization =>
      have := Fl.le_of_lt hlt
      simp only [OptType.mul, AtLeastAsGood] at *
      have h2 := (Fl.neg_le_neg (-s.xf) v).2 this
      simpa using h2
  · cases t <;> exact Fl.le_refl h

theorem AtLeastAsGood.trans {t : OptType} {a b c : Fl} (h : AtLeastAsGood t a b) (h' : AtLeastAsGood t b c) :
    AtLeastAsGood t a c := by
  cases t
  · exact Fl.le_trans h h'
  · exact Fl.le_trans h' h

theorem AtLeastAsGood.ne_nan {t : OptType} {a b : Fl} (h : AtLeastAsGood t a b) : a ≠ .nan := by
  cases t
  · exact Fl.ne_nan_of_le_left h
  · exact Fl.ne_nan_of_le_right h

theorem AtLeastAsGood.refl {t : OptType} {a : Fl} (h : a ≠ .nan) : AtLeastAsGood t a a := by
  cases t <;> exact Fl.le_refl h

/-- One operation never worsens `x_f`. -/
theorem stepOp_better (env : Env X) (w : World X) (o : Op X) (h : w.st.xf ≠ .nan) :
    AtLeastAsGood env.opt (stepOp env w o).2.st.xf w.st.xf := by
  rcases stepOp_cases env w o with ⟨hs, hc⟩ | ⟨hs, hc⟩ | ⟨x, -, hs, hc⟩
  · rw [hs]; exact .refl h
  · rw [hs]; exact .refl h
  · rw [hs]
    rcases evalTask_cases env.toTaskCfg w.st x with ⟨_, he⟩ | ⟨_, e, _, he⟩ | ⟨_, r, _, he⟩
    · rw [he]; exact .refl h
    · rw [he]; exact .refl h
    · rw [he]; exact record_better env.opt _ _ h

/-- **C04 (monotone).** From any world whose `x_f` is not NaN (every world reachable from a fresh task, by C03), no
program ever makes `x_f` worse. -/
theorem C04_monotone (env : Env X) (p : Prog X α) (w : World X) (h : w.st.xf ≠ .nan) :
    AtLeastAsGood env.opt (p.run env w).2.st.xf w.st.xf :=
  run_invariant env (fun w' => AtLeastAsGood env.opt w'.st.xf w.st.xf)
    (fun w' o hi => (stepOp_better env w' o hi.ne_nan).trans hi) p w (.refl h)

/-- What an operation does to the per-iteration record. -/
theorem stepOp_fitnessIters (env : Env X) (w : World X) (o : Op X) :
    ((stepOp env w o).2.st.fitnessIters = w.st.fitnessIters ∧ (stepOp env w o).2.st.iters = w.st.iters) ∨
    ((stepOp env w o).2.st = nextIter w.st) := by
  rcases stepOp_cases env w o with ⟨hs, hc⟩ | ⟨hs, hc⟩ | ⟨x, -, hs, hc⟩
  · left; rw [hs]; exact ⟨rfl, rfl⟩
  · right; exact hs
  · left; rw [hs]
    rcases evalTask_cases env.toTaskCfg w.st x with ⟨_, he⟩ | ⟨_, e, _, he⟩ | ⟨_, r, _, he⟩
    · rw [he]; exact ⟨rfl, rfl⟩
    · rw [he]; exact ⟨rfl, rfl⟩
    · rw [he]; simp

/-- **C04 (record).** After any program from a fresh task the per-iteration record has `iters` entries and is
monotone: later entries are at least as good as earlier ones, and the current `x_f` is at least as good as all. -/
theorem C04_record_monotone (env : Env X) (p : Prog X α) :
    (p.run env (World.init env.opt)).2.st.fitnessIters.length = (p.run env (World.init env.opt)).2.st.iters ∧
    ((p.run env (World.init env.opt)).2.st.fitnessIters.Pairwise fun a b => AtLeastAsGood env.opt b a) ∧
    ∀ a ∈ (p.run env (World.init env.opt)).2.st.fitnessIters,
      AtLeastAsGood env.opt (p.run env (World.init env.opt)).2.st.xf a := by
  refine And.imp_right And.right (run_invariant env (fun w => w.st.fitnessIters.length = w.st.iters ∧ w.st.xf ≠ .nan ∧
    (w.st.fitnessIters.Pairwise fun a b => AtLeastAsGood env.opt b a) ∧
    ∀ a ∈ w.st.fitnessIters, AtLeastAsGood env.opt w.st.xf a) ?_ p _ ?_)
  · rintro w o ⟨h1, h2, h3, h4⟩
    have hb := stepOp_better env w o h2
    rcases stepOp_fitnessIters env w o with ⟨hf, hi⟩ | hs
    · rw [hf, hi]
      exact ⟨h1, hb.ne_nan, h3, fun a ha => hb.trans (h4 a ha)⟩
    · rw [hs]
      refine ⟨by simp [nextIter, h1], h2, ?_, ?_⟩
      · simp only [nextIter, List.pairwise_append]
        refine ⟨h3, by simp, fun a ha b hb => ?_⟩
        simp at hb; subst hb; exact h4 a ha
      · intro a ha
        simp only [nextIter, List.mem_append, List.mem_singleton] at ha
        rcases ha with ha | ha
        · exact h4 a ha
        · subst ha; exact .refl h2
  · refine ⟨rfl, ?_, by simp [World.init, TaskSt.init], by simp [World.init, TaskSt.init]⟩
    simp [World.init, TaskSt.init]

/-- The record only grows at its end. -/
theorem fitnessIters_prefix (env : Env X) (p : Prog X α) (w : World X) :
    w.st.fitnessIters <+: (p.run env w).2.st.fitnessIters := by
  refine run_relation env (fun a b => a.st.fitnessIters <+: b.st.fitnessIters) (fun _ => List.prefix_rfl)
    (fun _ _ _ => List.IsPrefix.trans) ?_ p w
  intro w o
  rcases stepOp_fitnessIters env w o with ⟨hf, -⟩ | hs
  · exact ⟨[], by rw [List.append_nil, hf]⟩
  · exact ⟨[w.st.xf], by rw [hs]; rfl⟩

/-- **C04 (entry k).** The entry with index `k` is the value `x_f` had when `next_iter` was called with `k`
iterations before: run `p` from a fresh task, call `next_iter`, then run anything. -/
theorem C04_record_entry (env : Env X) (p : Prog X α) (q : Prog X β) (w : World X)
    (hw : (p.run env (World.init env.opt)).2 = w) :
    ((Prog.next.bind fun _ => q).run env w).2.st.fitnessIters[w.st.iters]? = some w.st.xf := by
  have hlen : w.st.fitnessIters.length = w.st.iters := by rw [← hw]; exact (C04_record_monotone env p).1
  have h1 : ((Prog.next.bind fun _ => q).run env w) = q.run env { w with st := nextIter w.st } := by
    simp [Prog.run_bind, Prog.run_next]
  rw [h1]
  obtain ⟨t, ht⟩ := fitnessIters_prefix env q { w with st := nextIter w.st }
  rw [← ht]
  simp [nextIter, ← hlen]

/-- Two iterations: the record holds 3 and then 1. -/
example : ((Ex.client.bind fun _ => (Prog.eval 1).bind fun _ => Prog.next).run (Ex.env Ex.idObj)
    (World.init .minimization)).2.st.fitnessIters = [.fin 3, .fin 1] := by decide +kernel

/-! ## C07 -/

/-- **C07 (no call after the cutoff).** If the log of a run from a fresh task contains an evaluation whose value is
at least as good as the cutoff, then that evaluation is the last one of the log and the task has stopped. -/
theorem C07_cutoff (env : Env X) (p : Prog X α) (pre post : List (X × Except PyErr Fl)) (x : X) (r : Fl)
    (hlog : (p.run env (World.init env.opt)).2.calls = pre ++ (x, .ok r) :: post)
    (hr : AtLeastAsGood env.opt r env.cutoff) :
    post = [] ∧ stoppingCondition env.toTaskCfg (p.run env (World.init env.opt)).2.st = true := by
  have stopOf : ∀ s : TaskSt, AtLeastAsGood env.opt s.xf env.cutoff → stoppingCondition env.toTaskCfg s = true := by
    intro s hs
    unfold stoppingCondition
    have : env.opt.mul s.xf ≤ env.opt.mul env.cutoff := by
      cases h : env.opt <;> simpa [OptType.mul, AtLeastAsGood, h] using hs
    simp [this]
  have key : BestOf env.opt (values (p.run env (World.init env.opt)).2.calls)
        (p.run env (World.init env.opt)).2.st.xf ∧
      ∀ pre post x r, (p.run env (World.init env.opt)).2.calls = pre ++ (x, .ok r) :: post →
        AtLeastAsGood env.opt r env.cutoff → post = [] := by
    refine run_invariant env (fun w => BestOf env.opt (values w.calls) w.st.xf ∧
        ∀ pre post x r, w.calls = pre ++ (x, .ok r) :: post → AtLeastAsGood env.opt r env.cutoff → post = [])
      ?_ p (World.init env.opt) ⟨bestOf_nil env.opt, ?_⟩
    · rintro w o ⟨hb, h⟩
      have hb' := bestOf_run env (Prog.lift o) w hb
      rw [Prog.run_lift] at hb'
      refine ⟨hb', ?_⟩
      rcases stepOp_cases env w o with ⟨hs, hc⟩ | ⟨hs, hc⟩ | ⟨y, -, hs, hc⟩
      · rw [hc]; exact h
      · rw [hc]; exact h
      · rw [hc]
        intro pre post x r heq hr
        have stopped_of_mem : (x, Except.ok r) ∈ w.calls → stoppingCondition env.toTaskCfg w.st = true := by
          intro hm
          apply stopOf
          have hmem : r ∈ values w.calls := mem_values.2 ⟨x, hm⟩
          refine AtLeastAsGood.trans ?_ hr
          have hnn : r ≠ .nan := hr.ne_nan
          exact hb.good hmem hnn
        have aux : ∀ c, (evalTask env.toTaskCfg w.st y).2.2 = [c] →
            stoppingCondition env.toTaskCfg w.st = false → post = [] := by
          intro c hcc hst
          rw [hcc] at heq
          rcases List.append_eq_append_iff.1 heq with ⟨l, h1, h2⟩ | ⟨l, h1, h2⟩
          · cases l with
            | nil => simp at h2; exact h2.2
            | cons a l => simp at h2
          · cases l with
            | nil => simp at h2; exact h2.2
            | cons a l =>
              simp at h2
              have : (x, Except.ok r) ∈ w.calls := by rw [h1, ← h2.1]; simp
              rw [stopped_of_mem this] at hst; simp at hst
        rcases evalTask_cases env.toTaskCfg w.st y with ⟨_, he⟩ | ⟨hst, e, _, he⟩ | ⟨hst, r', _, he⟩
        · rw [he] at heq; simp at heq; exact h pre post x r heq hr
        · exact aux _ (by rw [he]) hst
        · exact aux _ (by rw [he]) hst
    · intro pre post x r heq; simp [World.init] at heq
  refine ⟨key.2 _ _ _ _ hlog hr, stopOf _ ?_⟩
  have hmem : r ∈ values (p.run env (World.init env.opt)).2.calls := by
    rw [hlog]; exact mem_values.2 ⟨x, by simp⟩
  have hnn : r ≠ .nan := hr.ne_nan
  have hbest := key.1
  refine AtLeastAsGood.trans ?_ hr
  exact hbest.good hmem hnn

/-- **C07 (default cutoff).** With the default cutoff, the task stops only because of a limit or because an
evaluation returned an infinitely good value. -/
theorem C07_default_cutoff (obj : ℕ → X → Except PyErr Fl) (opt : OptType) (me mi : Option ℕ) (s : TaskSt)
    (h : stoppingCondition (TaskCfg.mk' obj opt me mi none) s = true) :
    reached s.evals me = true ∨ reached s.iters mi = true ∨ s.xf = opt.mul .ninf := by
  simp only [stoppingCondition, TaskCfg.mk', Bool.or_eq_true, decide_eq_true_eq, OptType.mul_mul] at h
  rcases h with (h | h) | h
  · exact Or.inl h
  · exact Or.inr (Or.inl h)
  · right; right
    have h2 : opt.mul s.xf = .ninf := by
      cases hx : opt.mul s.xf <;> simp_all
    rw [← h2]; simp

/-- With cutoff 5 the first evaluation of the client reaches the cutoff and is the only one. -/
example : (Ex.client.run (Ex.env Ex.idObj (cutoff := some (.fin 5))) (World.init .minimization)).2.calls =
    [] ++ (5, .ok (.fin 5)) :: [] ∧ AtLeastAsGood .minimization (.fin 5) (Ex.env Ex.idObj (cutoff := some (.fin 5))).cutoff :=
  ⟨by rfl, by decide +kernel⟩
/-- A task with the default cutoff that has stopped. -/
example : stoppingCondition (TaskCfg.mk' Ex.idObj .minimization (some 0) none none) (TaskSt.init .minimization) = true := by
  decide +kernel

/-! ## C08 -/

/-- **C08.** If the task is not stopped and the objective raises at `x`, `eval` raises the same exception; the
evaluation is counted, and the best value and both records are unchanged. -/
theorem C08_raising_objective (env : Env X) (w : World X) (x : X) (e : PyErr)
    (hns : stoppingCondition env.toTaskCfg w.st = false) (he : env.obj w.st.evals x = .error e) :
    ∃ w', (Prog.eval x).run env w = (.error e, w') ∧ w'.st = { w.st with evals := w.st.evals + 1 } ∧
      w'.calls = w.calls ++ [(x, .error e)] := by
  simp [Prog.run_eval, evalTask, hns, he]

/-- The hypotheses hold for the raising objective at 7 on a fresh task. -/
example : stoppingCondition (Ex.env Ex.raising).toTaskCfg (World.init .minimization : World ℚ).st = false ∧
    (Ex.env Ex.raising).obj (World.init .minimization : World ℚ).st.evals 7 = .error (.user 0) :=
  ⟨by decide +kernel, by rfl⟩

end NiaPy
