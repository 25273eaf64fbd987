import Verif.AlgProps

/-!
# Number of evaluations of a run (C30) and termination under `max_evals` (C17)
-/

namespace NiaPy
variable {X α : Type}

/-- The task was stopped by its evaluation budget or its cutoff value (not by `max_iters`). -/
def Spent (env : Env X) (s : TaskSt) : Prop :=
  reached s.evals env.maxEvals = true ∨ env.opt.mul s.xf ≤ env.opt.mul env.cutoff

theorem Spent.stopped {env : Env X} {s : TaskSt} (h : Spent env s) : stoppingCondition env.toTaskCfg s = true := by
  rcases h with h | h
  · simp [stoppingCondition, h]
  · simp [stoppingCondition, h]

theorem Spent.run {env : Env X} {w : World X} (h : Spent env w.st) (p : Prog X α) : Spent env (p.run env w).2.st := by
  have := (C02_stopped_stays env w h.stopped p).2
  simp only [frozen, Prod.mk.injEq] at this
  unfold Spent
  rw [this.2.1, this.2.2.1]
  exact h

/-- The facts about one round used below. -/
theorem run_round {Q : α → Ghost X → Prop} {p : Prog X α} {env : Env X} {w : World X} {Ev} {P : X → Prop} {sh : Prop} (hR : ∀ rng k x, P (env.repairFn rng k x))
    (h : p.wp ⟨P, Held sh P (Possible env), True, False, True, Ev, False, env.Repairs⟩ Q ⟨env.opt.mul w.st.xf, 0, w.events⟩)
    (hw : CallsOK env w) :
    (p.run env w).2.st.iters = w.st.iters ∧
      ∀ a, (p.run env w).1 = .ok a → ∃ g', (Q a g' ∧ g'.b = env.opt.mul (p.run env w).2.st.xf) ∧ (p.run env w).2.st.evals ≤ w.st.evals + g'.c ∧
        (stoppingCondition env.toTaskCfg (p.run env w).2.st = false → (p.run env w).2.st.evals = w.st.evals + g'.c) := by
  obtain ⟨g', ht, hq, -⟩ := wp_sound _ env (.of hR fun _ _ h => h) (Or.inl trivial) p Q _ w h (fun x v hg h => .of hg ((hw.run p).possible h)) rfl rfl
  refine ⟨ht.iters.resolve_left id, fun a ha => ⟨g', ⟨hq a ha, ht.best rfl⟩, ?_, ?_⟩⟩
  · have := ht.count_le; simpa using this
  · intro hs; have := ht.count_eq hs; simpa using this

/-- Bounds on the number of evaluations after `iters` iterations. -/
def CountAt (env : Env X) (K : Cost) (s : TaskSt) : Prop :=
  (∀ h, K.hi = some h → s.evals ≤ K.init + s.iters * h) ∧ (¬ Spent env s → K.init + s.iters * K.lo ≤ s.evals)

theorem loop_count {A : Alg X} {Inv : A.σ → Fl → Prop} {env : Env X} {K : Cost} {al : Prop} {P : X → Prop} {sh : Prop} (hR : ∀ rng k x, P (env.repairFn rng k x))
    (hok : AlgOKW A ⟨P, Held sh P (Possible env), True, False, True, fun _ => False, False, env.Repairs⟩ K al Inv)
    (ncb fuel : ℕ) (s : A.σ) (xb : X) (fxb : Fl) (w : World X)
    (hi : Inv s (env.opt.mul w.st.xf)) (hcw : CallsOK env w) (hf : Held sh P (Possible env) xb fxb) (hw : CountAt env K w.st)
    (r : A.σ × X × Fl) (hr : ((A.loop ncb fuel s xb fxb).run env w).1 = .ok r) :
    CountAt env K ((A.loop ncb fuel s xb fxb).run env w).2.st := by
  induction fuel generalizing s xb fxb w with
  | zero => cases hr
  | succ fuel ih =>
    simp only [Alg.loop, Prog.bind_def, Prog.run_bind, Prog.run_look] at hr ⊢
    by_cases hs : stoppingCondition env.toTaskCfg w.st = true
    · simpa [hs] using hw
    simp only [hs, Bool.false_eq_true, if_false, Prog.run_bind] at hr ⊢
    have f1 := fireAll_st env ncb (.beforeIteration (A.pop s) (A.fit s) xb fxb) w
    rcases h1 : (fireAll ncb (.beforeIteration (A.pop s) (A.fit s) xb fxb)).run env w with ⟨e | u, w1⟩
    · rw [h1] at hr; cases hr
    rw [h1] at f1 hr
    simp only at f1 hr ⊢
    have hw1 : CallsOK env w1 := by
      have := hcw.run (fireAll ncb (.beforeIteration (A.pop s) (A.fit s) xb fxb)); rwa [h1] at this
    have f2 := run_round hR (w := w1) (env := env) (hok.iter s xb fxb _ (by rw [f1]; exact hi) hf
      (fun hn => hn.trk.elim)) hw1
    have hw2 := hw1.run (A.iter s xb fxb)
    rcases h2 : (A.iter s xb fxb).run env w1 with ⟨e | r', w2⟩
    · rw [h2] at hr; cases hr
    have hsp := fun h : Spent env w1.st => h.run (A.iter s xb fxb)
    rw [h2] at f2 hr hsp hw2
    simp only at f2 hr hsp hw2 ⊢
    have f3 := fireAll_st env ncb (.afterIteration (A.pop r'.1) (A.fit r'.1) r'.2.1 r'.2.2) w2
    rcases h3 : (fireAll ncb (.afterIteration (A.pop r'.1) (A.fit r'.1) r'.2.1 r'.2.2)).run env w2 with ⟨e | u, w3⟩
    · rw [h3] at hr; cases hr
    have hw3 : CallsOK env w3 := by
      have := hw2.run (fireAll ncb (.afterIteration (A.pop r'.1) (A.fit r'.1) r'.2.1 r'.2.2)); rwa [h3] at this
    rw [h3] at f3 hr
    simp only [Prog.run_next] at f3 hr ⊢
    obtain ⟨f2a, f2b⟩ := f2
    obtain ⟨g', ⟨⟨hi', hf', -, hk⟩, hg'⟩, hle, heq⟩ := f2b r' rfl
    rw [hg'] at hi'
    refine ih r'.1 r'.2.1 r'.2.2 _ (by simp only [nextIter]; rw [f3]; exact hi') hw3 hf' ?_ hr
    have hit : w3.st.iters = w.st.iters := by rw [f3, f2a, f1]
    refine ⟨fun h hh => ?_, fun hns => ?_⟩
    · have h0 := hw.1 h hh
      have h4 := hk.2 h hh
      simp only [nextIter]
      rw [f3, f2a, f1] at *
      rw [Nat.add_mul]
      omega
    · have hns2 : ¬ Spent env w2.st := fun h => hns (by rw [← f3] at h; exact h)
      have hns1 : ¬ Spent env w.st := fun h => hns2 (hsp (by rw [f1]; exact h))
      have hlive : stoppingCondition env.toTaskCfg w2.st = false := by
        rw [← Bool.not_eq_true]
        intro hst
        apply hns2
        simp only [stoppingCondition, f2a, f1, Bool.or_eq_true, decide_eq_true_eq, not_or] at hst hs
        rcases hst with (h | h) | h
        · exact Or.inl h
        · exact absurd h hs.1.2
        · exact Or.inr h
      have h0 := hw.2 hns1
      have h4 := hk.1
      have h5 := heq hlive
      simp only [nextIter]
      rw [f3, f2a]
      rw [f1] at h5 ⊢
      rw [Nat.add_mul]
      omega

/-- C30: after a run of `T` completed iterations the number of objective calls is at most `init + T * hi`; and if neither
the evaluation budget nor the cutoff was reached it is at least `init + T * lo`. For algorithms with a fixed number `n`
of evaluations per iteration (`Cost.exact`) it is `init + T * n` then. -/
theorem C30_evaluations {H : Ctx X → Prop} {A : Alg X} {Good : X → Prop} {s t : Bool} {K : Cost} {al : Prop}
    (hA : VerifiedIf H A Good s t K al) (env : Env X) {P : X → Prop} {sh : Prop} (hH : MetBy H env False P sh)
    (main : Bool) (ncb fuel : ℕ) (out : RunOut X) (res : X × Fl) (hrun : (A.exec env main ncb fuel).1 = .ok out)
    (hres : out.result = some res) (hmi : env.maxIters ≠ some 0) (hG : ∀ x, Good x → P x := by intros; trivial)
    (hR : ∀ rng k x, P (env.repairFn rng k x) := by intros; trivial) :
    let fin := (A.exec env main ncb fuel).2
    (∀ h, K.hi = some h → fin.calls.length ≤ K.init + fin.st.iters * h) ∧
    (¬ Spent env fin.st → K.init + fin.st.iters * K.lo ≤ fin.calls.length) := by
  intro fin
  obtain ⟨Inv, hok⟩ := hA
  have hC := hok ⟨P, Held sh P (Possible env), True, False, True, fun _ => False, False, env.Repairs⟩ (hH _ (fun _ _ h => h) id rfl (fun _ _ h => h) fun hs => Held.other hs) hG
    (fun _ => trivial) (fun _ => trivial)
  have hfin : fin = (A.execBody env ncb fuel).2 := by simp only [fin, exec_eq]
  have hlen : fin.calls.length = fin.st.evals := by rw [hfin]; exact (C01_budget env (A.body ncb fuel)).1
  rw [hlen, hfin]
  rw [exec_eq] at hrun
  simp only at hrun
  rcases hb : (A.execBody env ncb fuel).1 with e | r
  · rw [hb] at hrun
    simp only at hrun
    split at hrun
    · cases hrun
    · cases hrun; cases hres
  clear hrun
  suffices CountAt env K (A.execBody env ncb fuel).2.st from this
  simp only [Alg.execBody, Alg.body, Prog.bind_def, Prog.run_bind] at hb ⊢
  have f1 := fireAll_st env ncb .beforeRun (World.init env.opt)
  rcases h1 : (fireAll ncb .beforeRun).run env (World.init env.opt) with ⟨e | u, w1⟩
  · rw [h1] at hb; cases hb
  rw [h1] at f1 hb
  simp only at f1 hb ⊢
  have hw1 : CallsOK env w1 := by
    have := (CallsOK.init env).run (fireAll ncb .beforeRun); rwa [h1] at this
  have f2 := run_round hR (w := w1) (env := env) (hC.init _ (by simp [f1, World.init, TaskSt.init])) hw1
  have hw2 := hw1.run A.init
  rcases h2 : A.init.run env w1 with ⟨e | s0, w2⟩
  · rw [h2] at hb; cases hb
  rw [h2] at f2 hb hw2
  simp only at f2 hb hw2 ⊢
  obtain ⟨f2a, f2b⟩ := f2
  obtain ⟨g', ⟨⟨hi, hal, -, hk⟩, hg'⟩, hle, heq⟩ := f2b s0 rfl
  rw [hg'] at hi hal
  rcases hg : getBest (A.pop s0) (A.fit s0) none .pinf with e | r0
  · rw [hg] at hb; cases hb
  rw [hg] at hb
  simp only [Prog.ofExcept, Prog.run_pure] at hb ⊢
  have hz : w2.st.iters = 0 := by rw [f2a, f1]; rfl
  have hz1 : w1.st.evals = 0 := by rw [f1]; rfl
  rcases h3 : (A.loop ncb fuel s0 r0.1 r0.2).run env w2 with ⟨e | r', w3⟩
  · rw [h3] at hb; cases hb
  have h0 : CountAt env K w2.st := by
    refine ⟨fun h _ => by rw [hz]; omega, fun hns => ?_⟩
    have hlive : stoppingCondition env.toTaskCfg w2.st = false := by
      rw [← Bool.not_eq_true]
      intro hst
      simp only [stoppingCondition, hz, Bool.or_eq_true, decide_eq_true_eq] at hst
      rcases hst with (h | h) | h
      · exact hns (Or.inl h)
      · cases hm : env.maxIters with
        | none => rw [hm] at h; cases h
        | some m => rw [hm] at h hmi; simp [reached] at h; exact hmi (by rw [h])
      · exact hns (Or.inr h)
    have := heq hlive
    rw [hz]; omega
  have hl := loop_count hR hC ncb fuel s0 r0.1 r0.2 w2 hi hw2
    (getBest_aligned (hal.imp fun _ _ h => h.1) (fun x hx => by cases hx) hg) h0 r' (by rw [h3])
  rw [h3] at hb hl
  simp only at hb hl ⊢
  have f4 := fireAll_st env ncb .afterRun w3
  rcases h4 : (fireAll ncb .afterRun).run env w3 with ⟨e | u, w4⟩
  · rw [h4] at hb; cases hb
  rw [h4] at f4
  simp only [Prog.pure_def, Prog.run_pure] at f4 ⊢
  rw [f4]; exact hl

/-- C17 with an evaluation budget: if every iteration evaluates at least one point, `run` ends after at most `max_evals + 1`
rounds. -/
theorem loop_terminates_evals {A : Alg X} {Inv : A.σ → Fl → Prop} {env : Env X} {K : Cost} {al : Prop} {P : X → Prop} {sh : Prop} (hR : ∀ rng k x, P (env.repairFn rng k x))
    (hok : AlgOKW A ⟨P, Held sh P (Possible env), True, False, False, fun _ => False, False, env.Repairs⟩ K al Inv) (hE : Clean env)
    (hlo : 0 < K.lo) (m : ℕ) (hm : env.maxEvals = some m) (ncb fuel : ℕ) (s : A.σ) (xb : X) (fxb : Fl) (w : World X)
    (hi : Inv s (env.opt.mul w.st.xf)) (hcw : CallsOK env w) (hf : Held sh P (Possible env) xb fxb)
    (hfuel : 0 < fuel ∧ (stoppingCondition env.toTaskCfg w.st = true ∨ m + 1 ≤ w.st.evals + fuel)) :
    ((A.loop ncb fuel s xb fxb).run env w).1 ≠ .error .outOfFuel := by
  have fire : ∀ (e : Event X) (w : World X), ((fireAll ncb e).run env w).1 ≠ .error .outOfFuel := fun e w =>
    (run_quiet (Q := fun _ _ => True) (p := fireAll ncb e) (env := env) (w := w) (G := fun _ => True)
      (F := fun _ _ => True) (ent := True) (Ev := fun _ => True) (trk := False) (wp_fireAll (fun _ _ => trivial) trivial)
      (fun _ _ _ => trivial) (fun _ _ _ _ => trivial) hE).1
  induction fuel generalizing s xb fxb w with
  | zero => omega
  | succ fuel ih =>
    simp only [Alg.loop, Prog.bind_def, Prog.run_bind, Prog.run_look]
    by_cases hs : stoppingCondition env.toTaskCfg w.st = true
    · simp [hs]
    have hlt : w.st.evals < m := by
      simp only [stoppingCondition, hm, reached, Bool.or_eq_true, decide_eq_true_eq, not_or] at hs
      omega
    have hfu : m + 1 ≤ w.st.evals + (fuel + 1) := by
      rcases hfuel.2 with h | h
      · exact absurd h hs
      · exact h
    simp only [hs, Bool.false_eq_true, if_false, Prog.run_bind]
    have f1 := fire (.beforeIteration (A.pop s) (A.fit s) xb fxb) w
    have f1' := fireAll_st env ncb (.beforeIteration (A.pop s) (A.fit s) xb fxb) w
    rcases h1 : (fireAll ncb (.beforeIteration (A.pop s) (A.fit s) xb fxb)).run env w with ⟨e | u, w1⟩
    · rw [h1] at f1
      intro h; cases h; exact f1 rfl
    rw [h1] at f1'
    simp only at f1' ⊢
    have hw1 : CallsOK env w1 := by
      have := hcw.run (fireAll ncb (.beforeIteration (A.pop s) (A.fit s) xb fxb)); rwa [h1] at this
    have hw2 := hw1.run (A.iter s xb fxb)
    obtain ⟨g', ht, hq, ho⟩ := wp_sound _ env (.of hR fun _ _ h => h) (Or.inr hE) _ _
      ⟨env.opt.mul w1.st.xf, 0, w1.events⟩ w1
      (hok.iter s xb fxb _ (by rw [f1']; exact hi) hf (fun hn => hn.trk.elim)) (fun x v hg h => .of hg (hw2.possible h)) rfl rfl
    rcases h2 : (A.iter s xb fxb).run env w1 with ⟨e | r, w2⟩
    · rw [h2] at ho
      intro h; cases h; exact ho rfl
    rw [h2] at ht hq hw2
    simp only at ht hq hw2 ⊢
    have f3 := fire (.afterIteration (A.pop r.1) (A.fit r.1) r.2.1 r.2.2) w2
    have f3' := fireAll_st env ncb (.afterIteration (A.pop r.1) (A.fit r.1) r.2.1 r.2.2) w2
    rcases h3 : (fireAll ncb (.afterIteration (A.pop r.1) (A.fit r.1) r.2.1 r.2.2)).run env w2 with ⟨e | u, w3⟩
    · rw [h3] at f3
      intro h; cases h; exact f3 rfl
    have hw3 : CallsOK env w3 := by
      have := hw2.run (fireAll ncb (.afterIteration (A.pop r.1) (A.fit r.1) r.2.1 r.2.2)); rwa [h3] at this
    rw [h3] at f3'
    simp only [Prog.run_next] at f3' ⊢
    obtain ⟨hi', hf', -, hk⟩ := hq r rfl
    rw [ht.best rfl] at hi'
    refine ih r.1 r.2.1 r.2.2 _ (by simp only [nextIter]; rw [f3']; exact hi') hw3 hf' ⟨by omega, ?_⟩
    by_cases hs2 : stoppingCondition env.toTaskCfg w2.st = true
    · left
      have := (C02_stopped_stays env w2 hs2 (Prog.next : Prog X Unit)).1
      rw [Prog.run_next] at this
      simp only at this ⊢
      rw [f3']; exact this
    · right
      have h5 : w2.st.evals + 0 = w1.st.evals + g'.c := ht.count_eq (by simpa using hs2)
      have h6 : 0 + K.lo ≤ g'.c := hk.1
      simp only [nextIter]
      rw [f3']
      rw [f1'] at h5
      omega

/-- C17 with an evaluation budget: if every iteration of the algorithm evaluates at least one point, `run` ends: the model's
bound on loop rounds is never hit if it is larger than `max_evals`. -/
theorem C17_terminates_max_evals {H : Ctx X → Prop} {A : Alg X} {Good : X → Prop} {s : Bool} {K : Cost} {al : Prop}
    (hA : VerifiedIf H A Good s true K al) (hlo : 0 < K.lo) (env : Env X) {P : X → Prop} {sh : Prop} (hH : MetBy H env False P sh) (hE : NoFuelError env) (m : ℕ) (hm : env.maxEvals = some m) (main : Bool)
    (ncb fuel : ℕ) (hfuel : m < fuel) (hG : ∀ x, Good x → P x := by intros; trivial)
    (hR : ∀ rng k x, P (env.repairFn rng k x) := by intros; trivial) : (A.exec env main ncb fuel).1 ≠ .error .outOfFuel := by
  obtain ⟨Inv, hok⟩ := hA
  have hC := hok ⟨P, Held sh P (Possible env), True, False, False, fun _ => False, False, env.Repairs⟩ (hH _ (fun _ _ h => h) id rfl (fun _ _ h => h) fun hs => Held.other hs) hG
    (fun _ => trivial) nofun
  have fire : ∀ (e : Event X) (w : World X), ((fireAll ncb e).run env w).1 ≠ .error .outOfFuel := fun e w =>
    (run_quiet (Q := fun _ _ => True) (p := fireAll ncb e) (env := env) (w := w) (G := fun _ => True)
      (F := fun _ _ => True) (ent := True) (Ev := fun _ => True) (trk := False) (wp_fireAll (fun _ _ => trivial) trivial)
      (fun _ _ _ => trivial) (fun _ _ _ _ => trivial) hE).1
  have hbody : (A.execBody env ncb fuel).1 ≠ .error .outOfFuel := by
    simp only [Alg.execBody, Alg.body, Prog.bind_def, Prog.run_bind]
    have f1 := fire .beforeRun (World.init env.opt)
    have f1' := fireAll_st env ncb .beforeRun (World.init env.opt)
    rcases h1 : (fireAll ncb .beforeRun).run env (World.init env.opt) with ⟨e | u, w1⟩
    · rw [h1] at f1
      intro h; cases h; exact f1 rfl
    rw [h1] at f1'
    simp only at f1' ⊢
    have hw1 : CallsOK env w1 := by
      have := (CallsOK.init env).run (fireAll ncb .beforeRun); rwa [h1] at this
    have hw2 := hw1.run A.init
    have f2 := run_quiet (w := w1) (env := env) (hC.init _ (by simp [f1', World.init, TaskSt.init]))
      hR (fun _ _ hg h => .of hg (hw2.possible h)) hE
    rcases h2 : A.init.run env w1 with ⟨e | s0, w2⟩
    · rw [h2] at f2
      intro h; cases h; exact f2.1 rfl
    rw [h2] at f2 hw2
    simp only at f2 hw2 ⊢
    obtain ⟨g', ⟨hi, hal, -⟩, hg'⟩ := f2.2.2 s0 rfl
    rw [hg'] at hi hal
    rcases hb : getBest (A.pop s0) (A.fit s0) none .pinf with e | r
    · simp only [Prog.ofExcept, Prog.run_throw]
      intro he
      cases he; exact getBest_no_oof _ _ _ _ hb
    simp only [Prog.ofExcept, Prog.run_pure]
    have f3 := loop_terminates_evals hR hC hE hlo m hm ncb fuel s0 r.1 r.2 w2 hi hw2
      (getBest_aligned (hal.imp fun _ _ h => h.1) (fun x hx => by cases hx) hb) ⟨by omega, Or.inr (by omega)⟩
    rcases h3 : (A.loop ncb fuel s0 r.1 r.2).run env w2 with ⟨e | r', w3⟩
    · rw [h3] at f3
      intro h; cases h; exact f3 rfl
    simp only
    have f4 := fire .afterRun w3
    rcases h4 : (fireAll ncb .afterRun).run env w3 with ⟨e | u, w4⟩
    · rw [h4] at f4
      intro h; cases h; exact f4 rfl
    · simp
  rw [exec_eq]
  simp only
  split
  · simp
  · rename_i e he
    split
    · intro h; cases h; exact hbody he
    · simp

end NiaPy
