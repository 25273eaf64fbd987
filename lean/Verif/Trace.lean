import Verif.CountProps

/-!
# The states an algorithm goes through

`Alg.Trace A env ncb hist w`: running `A` has led to the world `w` at the head of the `while` loop, and `hist` are the
states (with the incumbent) at the loop head so far, the last one first. Properties of the inner state of an algorithm
(leaders, personal bests, control parameters, sizes) are stated about these.
-/

namespace NiaPy
variable {X α : Type}

/-- `Algorithm.run` up to the `while` loop (algorithm.py:309-312). -/
def Alg.start (A : Alg X) (ncb : ℕ) : Prog X (A.σ × X × Fl) := do
  fireAll ncb .beforeRun
  let s ← A.init
  let (xb, fxb) ← Prog.ofExcept (getBest (A.pop s) (A.fit s) none .pinf)
  return (s, xb, fxb)

/-- Body of the `while` loop of `Algorithm.run` (algorithm.py:314-317). -/
def Alg.round (A : Alg X) (ncb : ℕ) (r : A.σ × X × Fl) : Prog X (A.σ × X × Fl) := do
  fireAll ncb (.beforeIteration (A.pop r.1) (A.fit r.1) r.2.1 r.2.2)
  let r ← A.iter r.1 r.2.1 r.2.2
  fireAll ncb (.afterIteration (A.pop r.1) (A.fit r.1) r.2.1 r.2.2)
  Prog.next
  return r

/-- The states at the head of the `while` loop. -/
inductive Alg.Trace (A : Alg X) (env : Env X) (ncb : ℕ) : List (A.σ × X × Fl) → World X → Prop
  | start {r w} : (A.start ncb).run env (World.init env.opt) = (.ok r, w) → A.Trace env ncb [r] w
  | round {r r' hist w w'} : A.Trace env ncb (r :: hist) w → stoppingCondition env.toTaskCfg w.st = false →
      (A.round ncb r).run env w = (.ok r', w') → A.Trace env ncb (r' :: r :: hist) w'

theorem loop_trace {A : Alg X} {env : Env X} {ncb fuel : ℕ} {r r' : A.σ × X × Fl} {hist : List (A.σ × X × Fl)} {w : World X}
    (ht : A.Trace env ncb (r :: hist) w) (h : ((A.loop ncb fuel r.1 r.2.1 r.2.2).run env w).1 = .ok r') :
    ∃ hist', A.Trace env ncb (r' :: hist') ((A.loop ncb fuel r.1 r.2.1 r.2.2).run env w).2 ∧
      stoppingCondition env.toTaskCfg ((A.loop ncb fuel r.1 r.2.1 r.2.2).run env w).2.st = true := by
  induction fuel generalizing r hist w with
  | zero => cases h
  | succ fuel ih =>
    simp only [Alg.loop, Prog.bind_def, Prog.run_bind, Prog.run_look] at h ⊢
    by_cases hs : stoppingCondition env.toTaskCfg w.st = true
    · simp only [hs, if_true, Prog.pure_def, Prog.run_pure] at h ⊢
      cases h
      exact ⟨hist, ht, trivial⟩
    simp only [hs, Bool.false_eq_true, if_false, Prog.run_bind] at h ⊢
    rcases h1 : (fireAll ncb (.beforeIteration (A.pop r.1) (A.fit r.1) r.2.1 r.2.2)).run env w with ⟨e | u, w1⟩
    · rw [h1] at h; cases h
    rw [h1] at h
    simp only at h ⊢
    rcases h2 : (A.iter r.1 r.2.1 r.2.2).run env w1 with ⟨e | r1, w2⟩
    · rw [h2] at h; cases h
    rw [h2] at h
    simp only at h ⊢
    rcases h3 : (fireAll ncb (.afterIteration (A.pop r1.1) (A.fit r1.1) r1.2.1 r1.2.2)).run env w2 with ⟨e | u, w3⟩
    · rw [h3] at h; cases h
    rw [h3] at h
    simp only [Prog.run_next] at h ⊢
    refine ih (.round ht (by simpa using hs) ?_) h
    simp only [Alg.round, Prog.bind_def, Prog.run_bind, h1, h2, h3, Prog.run_next, Prog.pure_def, Prog.run_pure]

/-- The state in which a run ends is the last one of a trace, and the task has stopped there. -/
theorem body_trace {A : Alg X} {env : Env X} {ncb fuel : ℕ} {r : A.σ × X × Fl}
    (h : (A.execBody env ncb fuel).1 = .ok r) : ∃ hist w, A.Trace env ncb (r :: hist) w ∧
      stoppingCondition env.toTaskCfg w.st = true ∧ (fireAll ncb .afterRun).run env w = (.ok (), (A.execBody env ncb fuel).2) := by
  simp only [Alg.execBody, Alg.body, Prog.bind_def, Prog.run_bind] at h ⊢
  rcases h1 : (fireAll ncb .beforeRun).run env (World.init env.opt) with ⟨e | u, w1⟩
  · rw [h1] at h; cases h
  rw [h1] at h
  simp only at h ⊢
  rcases h2 : A.init.run env w1 with ⟨e | s, w2⟩
  · rw [h2] at h; cases h
  rw [h2] at h
  simp only at h ⊢
  rcases h3 : getBest (A.pop s) (A.fit s) none .pinf with e | b
  · rw [h3] at h; cases h
  rw [h3] at h
  simp only [Prog.ofExcept, Prog.run_pure] at h ⊢
  have ht : A.Trace env ncb [(s, b.1, b.2)] w2 := .start (by
    simp only [Alg.start, Prog.bind_def, Prog.run_bind, h1, h2, h3, Prog.ofExcept, Prog.run_pure, Prog.pure_def])
  rcases h4 : (A.loop ncb fuel s b.1 b.2).run env w2 with ⟨e | r', w3⟩
  · rw [h4] at h; cases h
  rw [h4] at h
  simp only at h ⊢
  rcases h5 : (fireAll ncb .afterRun).run env w3 with ⟨e | u, w4⟩
  · rw [h5] at h; cases h
  rw [h5] at h
  simp only [Prog.pure_def, Prog.run_pure] at h ⊢
  cases h
  obtain ⟨hist', ht', hs⟩ := loop_trace (r := (s, b.1, b.2)) (fuel := fuel) (r' := r) ht (by simp only; rw [h4])
  simp only [h4] at ht' hs
  exact ⟨hist', w3, ht', hs, h5⟩

theorem fireAll_calls (env : Env X) (ncb : ℕ) (e : Event X) (w : World X) : ((fireAll ncb e).run env w).2.calls = w.calls := by
  have key : ∀ l : List ℕ, ∀ w : World X, ((forList l (fun i _ => Prog.fire i e) ()).run env w).2.calls = w.calls := by
    intro l
    induction l with
    | nil => intro w; rfl
    | cons a l ih =>
      intro w
      simp only [forList, Prog.run_bind, Prog.run_fire]
      cases env.callback a w.events.length e with
      | ok u => simp only; rw [ih]
      | error e => rfl
  exact key _ w

theorem fireAll_events (env : Env X) (ncb : ℕ) (e : Event X) (w : World X) (u : Unit) (w' : World X)
    (h : (fireAll ncb e).run env w = (.ok u, w')) : w'.events.length = w.events.length + ncb := by
  have key : ∀ l : List ℕ, ∀ (w w' : World X) u, (forList l (fun i _ => Prog.fire i e) ()).run env w = (.ok u, w') →
      w'.events.length = w.events.length + l.length := by
    intro l
    induction l with
    | nil => intro w w' u h; cases h; rfl
    | cons a l ih =>
      intro w w' u h
      simp only [forList, Prog.run_bind, Prog.run_fire] at h
      cases hc : env.callback a w.events.length e with
      | ok v =>
        rw [hc] at h
        simp only at h
        have := ih _ _ _ h
        simp at this ⊢
        omega
      | error e => rw [hc] at h; cases h
  simpa using key _ _ _ _ h

/-- The log of objective calls is always what the objective did. -/
theorem Alg.Trace.calls {A : Alg X} {env : Env X} {ncb : ℕ} {hist : List (A.σ × X × Fl)} {w : World X}
    (h : A.Trace env ncb hist w) : CallsOK env w := by
  induction h with
  | start h => have := (CallsOK.init env).run (A.start ncb); rwa [h] at this
  | @round r _ _ _ _ _ _ h ih => have := ih.run (A.round ncb r); rwa [h] at this

/-- Running `run_iteration` in the body of the loop. -/
theorem round_iter {A : Alg X} {env : Env X} {ncb : ℕ} {r r' : A.σ × X × Fl} {w w' : World X}
    (h : (A.round ncb r).run env w = (.ok r', w')) : ∃ w1 w2, (A.iter r.1 r.2.1 r.2.2).run env w1 = (.ok r', w2) ∧
      w1.st = w.st ∧ w1.calls = w.calls ∧ w'.st = nextIter w2.st ∧ w'.calls = w2.calls ∧
      w1.events.length = w.events.length + ncb ∧ w'.events.length = w2.events.length + ncb := by
  simp only [Alg.round, Prog.bind_def, Prog.run_bind] at h
  have f1 := fireAll_st env ncb (.beforeIteration (A.pop r.1) (A.fit r.1) r.2.1 r.2.2) w
  have c1 := fireAll_calls env ncb (.beforeIteration (A.pop r.1) (A.fit r.1) r.2.1 r.2.2) w
  rcases h1 : (fireAll ncb (.beforeIteration (A.pop r.1) (A.fit r.1) r.2.1 r.2.2)).run env w with ⟨e | u, w1⟩
  · rw [h1] at h; cases h
  rw [h1] at h f1 c1
  simp only at h f1 c1
  rcases h2 : (A.iter r.1 r.2.1 r.2.2).run env w1 with ⟨e | r1, w2⟩
  · rw [h2] at h; cases h
  rw [h2] at h
  simp only at h
  have f3 := fireAll_st env ncb (.afterIteration (A.pop r1.1) (A.fit r1.1) r1.2.1 r1.2.2) w2
  have c3 := fireAll_calls env ncb (.afterIteration (A.pop r1.1) (A.fit r1.1) r1.2.1 r1.2.2) w2
  rcases h3 : (fireAll ncb (.afterIteration (A.pop r1.1) (A.fit r1.1) r1.2.1 r1.2.2)).run env w2 with ⟨e | u, w3⟩
  · rw [h3] at h; cases h
  rw [h3] at h f3 c3
  simp only [Prog.run_next, Prog.pure_def, Prog.run_pure] at h f3 c3
  cases h
  refine ⟨w1, w2, h2, f1, c1, by rw [← f3], c3, fireAll_events _ _ _ _ _ _ h1, ?_⟩
  have := fireAll_events _ _ _ _ _ _ h3
  simpa using this

/-- Running `init_population`. -/
theorem start_init {A : Alg X} {env : Env X} {ncb : ℕ} {r : A.σ × X × Fl} {w : World X}
    (h : (A.start ncb).run env (World.init env.opt) = (.ok r, w)) : ∃ w1, A.init.run env w1 = (.ok r.1, w) ∧
      w1.st = TaskSt.init env.opt ∧ w1.calls = [] ∧ getBest (A.pop r.1) (A.fit r.1) none .pinf = .ok r.2 ∧
      w1.events.length = ncb := by
  simp only [Alg.start, Prog.bind_def, Prog.run_bind] at h
  have f1 := fireAll_st env ncb .beforeRun (World.init (X := X) env.opt)
  have c1 := fireAll_calls env ncb .beforeRun (World.init (X := X) env.opt)
  rcases h1 : (fireAll ncb .beforeRun).run env (World.init env.opt) with ⟨e | u, w1⟩
  · rw [h1] at h; cases h
  rw [h1] at h f1 c1
  simp only at h f1 c1
  rcases h2 : A.init.run env w1 with ⟨e | s, w2⟩
  · rw [h2] at h; cases h
  rw [h2] at h
  simp only at h
  rcases h3 : getBest (A.pop s) (A.fit s) none .pinf with e | b
  · rw [h3] at h; cases h
  rw [h3] at h
  simp only [Prog.ofExcept, Prog.run_pure, Prog.pure_def] at h
  cases h
  refine ⟨w1, h2, f1, c1, h3, ?_⟩
  have := fireAll_events _ _ _ _ _ _ h1
  simpa [World.init] using this

theorem round_calls {A : Alg X} {env : Env X} {ncb : ℕ} {r r' : A.σ × X × Fl} {w w' : World X}
    (h : (A.round ncb r).run env w = (.ok r', w')) : w.calls <+: w'.calls := by
  have := calls_prefix env (A.round ncb r) w
  rwa [h] at this

/-- **Invariants of traces.** `J hist b` holds of every trace `hist` (where `b` is the best internal value so far), if
`init_population` establishes it and `run_iteration` preserves it. `C.F` has to contain the fitness values of the calls
made. -/
theorem Alg.Trace.inv {A : Alg X} {env : Env X} {ncb : ℕ} {C : Ctx X} (hR : RepairOK C env) (ho : C.oof)
    (J : List (A.σ × X × Fl) → Fl → Prop)
    (hinit : ∀ g, g.b = .pinf → A.init.wp C (fun s g' => ∀ r, getBest (A.pop s) (A.fit s) none .pinf = .ok r → J [(s, r)] g'.b) g)
    (hiter : ∀ r hist g, J (r :: hist) g.b → (A.iter r.1 r.2.1 r.2.2).wp C (fun r' g' => J (r' :: r :: hist) g'.b) g)
    {hist : List (A.σ × X × Fl)} {w : World X} (h : A.Trace env ncb hist w) (hF : ∀ x v, FitOK env.opt w.calls x v → C.F x v) :
    J hist (env.opt.mul w.st.xf) := by
  induction h with
  | start h =>
    obtain ⟨w1, h1, h2, h3, h4, -⟩ := start_init h
    have hb : env.opt.mul w1.st.xf = .pinf := by rw [h2]; simp [TaskSt.init]
    have := wp_sound C env hR (Or.inl ho) _ _ ⟨env.opt.mul w1.st.xf, 0, w1.events⟩ w1 (hinit _ hb)
      (fun x v _ hf => hF x v (by rw [h1] at hf; exact hf)) rfl rfl
    rw [h1] at this
    obtain ⟨g', ht, hq, -⟩ := this
    rw [← ht.best rfl]
    exact hq _ rfl _ h4
  | round hprev hs h ih =>
    replace ih := ih fun x v hf => hF x v (hf.mono (round_calls h))
    obtain ⟨w1, w2, h1, h2, h3, h4, h5, -⟩ := round_iter h
    rw [← h2] at ih
    have := wp_sound C env hR (Or.inl ho) _ _ ⟨env.opt.mul w1.st.xf, 0, w1.events⟩ w1 (hiter _ _ _ ih)
      (fun x v _ hf => hF x v (by rw [h1] at hf; rw [h5]; exact hf)) rfl rfl
    rw [h1] at this
    obtain ⟨g', ht, hq, -⟩ := this
    rw [h4]
    simp only [nextIter]
    have hb := ht.best rfl
    simp only at hb
    rw [← hb]
    exact hq _ rfl

/-- The context of the calls made: all points allowed. -/
def World.ctx (w : World X) (env : Env X) (trk : Prop) : Ctx X :=
  ⟨fun _ => True, FitOK env.opt w.calls, True, False, True, fun _ => False, trk, env.Repairs⟩

/-- The largest context for `env`: the points that satisfy `P` allowed, all its fitness values possible. -/
def Env.ctx (env : Env X) (trk : Prop) (P : X → Prop := fun _ => True) (sh : Prop := True) : Ctx X :=
  ⟨P, Held sh P (Possible env), True, False, True, fun _ => False, trk, env.Repairs⟩

/-- A trace has as many rounds as the task has counted iterations, and every round invoked every callback twice. -/
theorem VerifiedIf.trace_count {H : Ctx X → Prop} {A : Alg X} {Good : X → Prop} {s t : Bool} {K : Cost} {al : Prop} (hA : VerifiedIf H A Good s t K al)
    (env : Env X) {P : X → Prop} {sh : Prop} (hH : MetBy H env False P sh) {ncb : ℕ} {hist : List (A.σ × X × Fl)} {w : World X} (h : A.Trace env ncb hist w) (hG : ∀ x, Good x → P x := by intros; trivial)
    (hR : ∀ rng k x, P (env.repairFn rng k x) := by intros; trivial) :
    hist.length = w.st.iters + 1 ∧ w.events.length = (2 * w.st.iters + 1) * ncb := by
  obtain ⟨Inv, hok⟩ := hA
  have hC := hok (env.ctx False P sh) (hH _ (fun _ _ h => h) id rfl (fun _ _ h => h) fun hs => Held.other hs) hG (fun _ => trivial) (fun _ => trivial)
  suffices hs : ∀ hist w, A.Trace env ncb hist w → hist.length = w.st.iters + 1 ∧ w.events.length = (2 * w.st.iters + 1) * ncb ∧
      ∃ r hist', hist = r :: hist' ∧ Inv (env.ctx False P sh) r.1 (env.opt.mul w.st.xf) ∧ Held sh P (Possible env) r.2.1 r.2.2 from
    ⟨(hs _ _ h).1, (hs _ _ h).2.1⟩
  intro hist w h
  induction h with
  | start h =>
    obtain ⟨w1, h1, h2, h3, h4, h5⟩ := start_init h
    have hw1 : CallsOK env w1 := by simp [CallsOK, h3]
    have hb : env.opt.mul w1.st.xf = .pinf := by rw [h2]; simp [TaskSt.init]
    have := wp_sound (env.ctx False P sh) env (.of hR fun _ _ h => h) (Or.inl trivial) _ _ ⟨env.opt.mul w1.st.xf, 0, w1.events⟩ w1 (hC.init _ hb)
      (fun x v hg hf => .of hg ((hw1.run _).possible hf)) rfl rfl
    rw [h1] at this
    obtain ⟨g', ht, hq, -⟩ := this
    have hit := ht.iters.resolve_left id
    have hev := ht.events.resolve_right id
    obtain ⟨hi, hal, -⟩ := hq _ rfl
    rw [ht.best rfl] at hi
    rw [hit, hev, h5, h2]
    refine ⟨rfl, by simp [TaskSt.init], _, [], rfl, hi, ?_⟩
    exact getBest_aligned (hal.imp fun _ _ h => h.1) (fun x hx => by cases hx) h4
  | round hprev hs h ih =>
    obtain ⟨w1, w2, h1, h2, h3, h4, h5, h6, h7⟩ := round_iter h
    have hw1 : CallsOK env w1 := by have := hprev.calls; unfold CallsOK at this ⊢; rwa [h3]
    obtain ⟨e1, e2, r0, hist', he, hi, hf⟩ := ih
    cases he
    rw [← h2] at hi
    have := wp_sound (env.ctx False P sh) env (.of hR fun _ _ h => h) (Or.inl trivial) _ _ ⟨env.opt.mul w1.st.xf, 0, w1.events⟩ w1
      (hC.iter _ _ _ _ hi hf fun hn => hn.trk.elim) (fun x v hg hf => .of hg ((hw1.run _).possible hf)) rfl rfl
    rw [h1] at this
    obtain ⟨g', ht, hq, -⟩ := this
    have hit := ht.iters.resolve_left id
    have hev := ht.events.resolve_right id
    obtain ⟨hi', hf', -⟩ := hq _ rfl
    rw [ht.best rfl] at hi'
    simp only at hit hev hi'
    have hit4 : (nextIter w2.st).iters = w2.st.iters + 1 := rfl
    rw [h4, h7, hev, h6, e2, hit4, hit, h2]
    refine ⟨by simp only [List.length_cons] at e1 ⊢; omega, by ring, _, _, rfl, ?_, hf'⟩
    simpa [nextIter] using hi'

end NiaPy
