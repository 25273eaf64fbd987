import Verif.AlgProps
import Verif.RepairProps

/-!
# Default initialization and `Individual` (C22, C23, C24)
-/

namespace NiaPy
variable {X α : Type} {C : Ctx X} {g : Ghost X}

/-- Rule for `tabM` where every entry evaluates points and keeps one point `pt i a` with fitness `val i a` that covers what
it evaluated. `d` is the number of evaluations per entry. -/
theorem wp_tabM_cov {n : ℕ} {f : Fin n → Prog X α} (pt : Fin n → α → X) (val : Fin n → α → Fl) (P : Fin n → α → Prop) (d : ℕ)
    {S : Fl → Prop} (h0 : Cov C S g)
    (hstep : ∀ (i : Fin n) g S, Cov C S g →
      (f i).wp C (fun a g' => Cov C (fun u => S u ∨ u = val i a) g' ∧ C.Fit g'.b (pt i a) (val i a) ∧ P i a ∧
        g'.c = g.c + d) g) :
    (tabM n f).wp C (fun r g' => Cov C (fun u => S u ∨ ∃ i, u = val i (r i)) g' ∧
      (∀ i, C.Fit g'.b (pt i (r i)) (val i (r i))) ∧ (∀ i, P i (r i)) ∧ g'.c = g.c + n * d) g := by
  induction n generalizing g S with
  | zero => exact ⟨h0.mono fun u hu => Or.inl hu, fun i => i.elim0, fun i => i.elim0, by simp⟩
  | succ n ih =>
    rw [tabM, Prog.wp_bind]
    refine Prog.wp_mono (fun a g' ha => ?_) (hstep 0 g S h0)
    rw [Prog.wp_bind]
    refine Prog.wp_mono (fun r g'' hr => ?_) (Prog.wp_below (ih (pt := fun i => pt i.succ) (val := fun i => val i.succ)
      (P := fun i => P i.succ) ha.1 fun i g S h => hstep i.succ g S h))
    obtain ⟨hr, hb⟩ := hr
    refine ⟨hr.1.mono ?_, ?_, ?_, ?_⟩
    · rintro u ((hu | hu) | ⟨i, hi⟩)
      · exact Or.inl hu
      · exact Or.inr ⟨0, hu⟩
      · exact Or.inr ⟨i.succ, hi⟩
    · intro i
      refine Fin.cases ?_ (fun j => ?_) i
      · exact ha.2.1.mono hb
      · exact hr.2.1 j
    · intro i
      refine Fin.cases ?_ (fun j => ?_) i
      · exact ha.2.2.1
      · exact hr.2.2.1 j
    · rw [hr.2.2.2, ha.2.2.2, Nat.add_mul]; omega

/-- Evaluating a whole population. -/
theorem wp_evalAll {n : ℕ} {pop : Fin n → X} {S : Fl → Prop} (hG : ∀ i, C.G (pop i)) (h0 : Cov C S g) :
    (tabM n fun i => Prog.eval (pop i)).wp C
      (fun r g' => Cov C (fun u => S u ∨ ∃ i, u = r i) g' ∧ (∀ i, C.Fit g'.b (pop i) (r i)) ∧ g'.c = g.c + n) g := by
  refine Prog.wp_mono (fun r g' h => ?_) (wp_tabM_cov (fun i _ => pop i) (fun _ a => a) (fun _ _ => True) 1 h0
    fun i g S hS => ?_)
  · exact ⟨h.1, h.2.1, by simpa using h.2.2.2⟩
  · rw [Prog.wp_eval]
    exact ⟨hG i, fun v hv => ⟨(hS.eval v).mono fun u hu => hu.symm, .new hv, trivial, rfl⟩⟩

theorem Cov.pinf (h : g.b = .pinf) (S : Fl → Prop) : Cov C S g := fun _ => Or.inl h

variable {D N : ℕ} {C : Ctx (Vec D)} {g : Ghost (Vec D)}

/-- Rule for `default_numpy_init`. -/
theorem wp_defaultNumpyInit {B : Box D} (hG : ∀ x, B.Mem x → C.G x) {S : Fl → Prop} (h0 : Cov C S g) :
    (defaultNumpyInit B N).wp C (fun r g' => 0 < N ∧ (∀ i, B.Mem (r.1 i)) ∧ (∀ i, C.Fit g'.b (r.1 i) (r.2 i)) ∧
      Cov C (fun u => S u ∨ u ∈ List.ofFn r.2) g' ∧ g'.c = g.c + N) g := by
  simp only [defaultNumpyInit, Prog.wp_bind']
  refine wp_tabM_pure (fun _ x => B.Mem x) (fun i => wp_unifVec_of B.le fun r hr => ⟨rfl, hr⟩) fun pop hpop => ?_
  rw [wp_ite]
  refine ⟨fun _ => nofun, fun hN => ?_⟩
  simp only [Prog.wp_bind']
  refine Prog.wp_mono (fun f g' h => ?_) (wp_evalAll (fun i => hG _ (hpop i)) h0)
  refine ⟨by omega, hpop, h.2.1, h.1.mono ?_, h.2.2⟩
  rintro u (hu | ⟨i, rfl⟩)
  · exact Or.inl hu
  · exact Or.inr (List.mem_ofFn.2 ⟨i, rfl⟩)

/-- Rule for `Individual.evaluate`. -/
theorem wp_evaluate {i : Indiv D} {Q : Indiv D → Ghost (Vec D) → Prop}
    (h : ∀ y v, C.G y → C.F y v → Q ⟨y, v⟩ (g.eval v)) : (i.evaluate).wp C Q g := by
  simp only [Indiv.evaluate, Prog.wp_bind', Prog.wp_repair, Prog.wp_eval]
  exact ⟨Or.inl trivial, fun y hy _ => ⟨hy, fun v hv => h y v hy hv⟩⟩

/-- Rule for a random individual. -/
theorem wp_indivRandom {B : Box D} {opt : OptType} {Q : Indiv D → Ghost (Vec D) → Prop}
    (h : ∀ y v, C.G y → C.F y v → Q ⟨y, v⟩ (g.eval v)) : (Indiv.random opt B).wp C Q g := by
  simp only [Indiv.random, Prog.wp_bind']
  exact wp_unifVec_of B.le fun r _ => wp_evaluate h

/-- Rule for `default_individual_init`. -/
theorem wp_defaultIndividualInit {B : Box D} {opt : OptType} {S : Fl → Prop} (h0 : Cov C S g) :
    (defaultIndividualInit opt B N).wp C (fun r g' => (∀ i, C.G (r i).x) ∧ (∀ i, C.Fit g'.b (r i).x (r i).f) ∧
      Cov C (fun u => S u ∨ ∃ i, u = (r i).f) g' ∧ g'.c = g.c + N) g := by
  refine Prog.wp_mono (fun r g' h => ?_) (wp_tabM_cov (fun _ a => a.x) (fun _ a => a.f) (fun _ a => C.G a.x) 1 h0
    fun i g S hS => wp_indivRandom fun y v hy hv => ⟨(hS.eval v).mono fun u hu => hu.symm, .new hv, hy, rfl⟩)
  exact ⟨h.2.2.1, h.2.1, h.1, by simpa using h.2.2.2⟩

/-! ## C22 -/

/-- C22 (partial): a copy has the coordinates of the original; its fitness is `inf`, always. Missing: the fitness, see
`C22_copy_false`. -/
theorem C22_copy_partial (i : Indiv D) : i.copy.x = i.x ∧ i.copy.f = .pinf := ⟨rfl, rfl⟩

/-- C22 is false of the code: an evaluated individual and its copy differ in fitness and do not compare equal. -/
theorem C22_copy_false (i : Indiv D) (h : i.f ≠ .pinf) : i.copy.f ≠ i.f ∧ i.copy.beq i = false := by
  refine ⟨fun e => h e.symm, ?_⟩
  have : Fl.eqB .pinf i.f = false := by
    cases hf : i.f <;> simp_all [Fl.eqB]
  simp [Indiv.copy, Indiv.beq, this]

example : (⟨fun _ => .fin 1, .fin 2⟩ : Indiv 3).copy.beq ⟨fun _ => .fin 1, .fin 2⟩ = false :=
  (C22_copy_false _ (by simp)).2

/-! ## C23 -/

/-- C23: after `individual.evaluate(task, rng)` the coordinates are the repaired ones, the only point the objective can
have seen is that repaired point, and the fitness is the value for it. -/
theorem C23_repaired_before_eval (env : Env (Vec D)) (w : World (Vec D)) (i : Indiv D) :
    ((i.evaluate.run env w).2.calls = w.calls ∨
      ∃ r, (i.evaluate.run env w).2.calls = w.calls ++ [(env.repairFn env.rng w.rk i.x, r)]) ∧
    ∀ j, (i.evaluate.run env w).1 = .ok j → j.x = env.repairFn env.rng w.rk i.x ∧
      FitOK env.opt (i.evaluate.run env w).2.calls j.x j.f := by
  have hrep : ∀ x, (Prog.repair x : Prog (Vec D) _).run env w =
      (.ok (env.repairFn env.rng w.rk x), { w with rk := w.rk + 1 }) := fun x => Prog.run_lift env (.repair true x) w
  simp only [Indiv.evaluate, Prog.bind_def, Prog.run_bind, hrep, Prog.run_eval]
  rcases evalTask_cases env.toTaskCfg w.st (env.repairFn env.rng w.rk i.x) with ⟨_, he⟩ | ⟨_, e, ho, he⟩ | ⟨_, r, ho, he⟩
  · rw [he]
    refine ⟨Or.inl (by simp), fun j hj => ?_⟩
    cases hj
    exact ⟨rfl, Or.inl rfl⟩
  · rw [he]
    exact ⟨Or.inr ⟨_, rfl⟩, nofun⟩
  · rw [he]
    refine ⟨Or.inr ⟨_, rfl⟩, fun j hj => ?_⟩
    cases hj
    exact ⟨rfl, Or.inr ⟨r, by simp, rfl⟩⟩

/-! ## C24 -/

/-- The program never calls `task.repair`. -/
def NoRepair : Prog X α → Prop
  | .pure _ => True
  | .throw _ => True
  | .op o k => (∀ s x, o ≠ .repair s x) ∧ ∀ r, NoRepair (k r)

theorem NoRepair.bind {β : Type} {p : Prog X α} {f : α → Prog X β} (hp : NoRepair p) (hf : ∀ a, NoRepair (f a)) :
    NoRepair (p.bind f) := by
  induction p with
  | pure a => exact hf a
  | throw e => trivial
  | op o k ih => exact ⟨hp.1, fun r => ih r (hp.2 r)⟩

theorem NoRepair.tabM {n : ℕ} {f : Fin n → Prog X α} (hf : ∀ i, NoRepair (f i)) : NoRepair (NiaPy.tabM n f) := by
  induction n with
  | zero => trivial
  | succ n ih => exact (hf 0).bind fun a => (ih fun i => hf i.succ).bind fun r => trivial

theorem NoRepair.lift {o : Op X} (h : ∀ s x, o ≠ .repair s x) : NoRepair (Prog.lift o) :=
  ⟨h, fun r => by cases r <;> trivial⟩

theorem NoRepair.run {p : Prog X α} (h : NoRepair p) (env : Env X) (rep : Rng → ℕ → X → X) (w : World X) :
    p.run env w = p.run { env with repairFn := rep } w := by
  induction p generalizing w with
  | pure a => rfl
  | throw e => rfl
  | op o k ih =>
    have hs : stepOp env w o = stepOp { env with repairFn := rep } w o := by
      cases o with
      | repair s x => exact absurd rfl (h.1 s x)
      | _ => rfl
    simp only [Prog.run, ← hs]
    exact ih _ (h.2 _) _

/-- C24: on a fresh task the default initialization yields `N ≥ 1` individuals, all of them in the box, evaluates nothing
outside the box, makes exactly `N` evaluations unless the task stops on the way, and every fitness value belongs to its
individual. -/
theorem C24_default_init (env : Env (Vec D)) (B : Box D) (N : ℕ) :
    let out := (defaultNumpyInit B N).run env (World.init env.opt)
    (∀ c ∈ out.2.calls, B.Mem c.1) ∧
    ∀ r, out.1 = .ok r → 0 < N ∧ (∀ i, B.Mem (r.1 i)) ∧ (∀ i, FitOK env.opt out.2.calls (r.1 i) (r.2 i)) ∧
      (stoppingCondition env.toTaskCfg out.2.st = false → out.2.calls.length = N) := by
  intro out
  -- the repair function is not used here: give it a trivial one
  have hE : ∀ (env' : Env (Vec D)), (∀ rng k x, B.Mem (env'.repairFn rng k x)) →
      let out := (defaultNumpyInit B N).run env' (World.init env'.opt)
      (∀ c ∈ out.2.calls, B.Mem c.1) ∧
      ∀ r, out.1 = .ok r → 0 < N ∧ (∀ i, B.Mem (r.1 i)) ∧ (∀ i, FitOK env'.opt out.2.calls (r.1 i) (r.2 i)) ∧
        (stoppingCondition env'.toTaskCfg out.2.st = false → out.2.calls.length = N) := by
    intro env' hR out
    let C : Ctx (Vec D) := ⟨B.Mem, FitOK env'.opt out.2.calls, True, True, True, fun _ => True, True, env'.Repairs⟩
    obtain ⟨g', ht, hq, -⟩ := wp_sound C env' (.of hR fun _ _ h => h) (Or.inl trivial) (defaultNumpyInit B N) _
      ⟨env'.opt.mul (World.init (X := Vec D) env'.opt).st.xf, 0, []⟩ (World.init env'.opt)
      (wp_defaultNumpyInit (C := C) (fun x h => h) (S := fun _ => False)
        (Cov.pinf (by simp [World.init, TaskSt.init]) _)) (fun _ _ _ h => h) rfl rfl
    refine ⟨fun c hc => ?_, fun r hr => ?_⟩
    · rcases ht.good c hc with h | h
      · simp [World.init] at h
      · exact h
    · obtain ⟨h1, h2, h3, -, h5⟩ := hq r hr
      refine ⟨h1, h2, fun i => (h3 i).1, fun hs => ?_⟩
      have := ht.count_eq hs
      have hb := (C01_budget env' (defaultNumpyInit B N)).1
      have hz : (World.init (X := Vec D) env'.opt).st.evals = 0 := rfl
      rw [hz, h5] at this
      simp only [Nat.zero_add, Nat.add_zero] at this
      exact hb.trans this
  have := hE { env with repairFn := fun _ _ _ => B.lo } fun _ _ _ i => ⟨Fl.le_refl (Fl.ne_nan_of_le_left (B.le i)), B.le i⟩
  have hrun : out = (defaultNumpyInit B N).run { env with repairFn := fun _ _ _ => B.lo } (World.init env.opt) := by
    refine NoRepair.run ?_ env _ _
    refine NoRepair.bind (NoRepair.tabM fun _ => NoRepair.tabM fun _ => NoRepair.lift nofun) fun pop => ?_
    split
    · trivial
    · exact NoRepair.bind (NoRepair.tabM fun _ => NoRepair.lift nofun) fun _ => trivial
  rw [hrun]
  exact this

/-- The hypotheses are met by any concrete run; here 2 individuals in [0,1]², evaluated with a constant objective. -/
example : ((defaultNumpyInit (D := 2) ⟨fun _ => .fin 0, fun _ => .fin 1, fun _ => by simp⟩ 2).run
    (Ex.env (fun _ _ => .ok (.fin 7))) (World.init .minimization)).2.calls.length = 2 := by decide +kernel

end NiaPy
