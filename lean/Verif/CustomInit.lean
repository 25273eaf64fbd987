import Verif.Summary

/-!
# Initialization functions supplied by the user (C108)

`Algorithm(initialization_function=f)` replaces the default initialization (algorithm.py:86-108, 246-264). The function is called with the task, the population
size, the generator of the algorithm and the type of individuals, and has to return a population and its fitness values. An initialization function is modelled
as a program that generates points without evaluating anything, followed by the evaluation of the points row by row, as in
examples/custom_init_population.py.
-/

namespace NiaPy
variable {X α β : Type}

/-- Whatever the logic shows of `p` it shows of `q`. -/
structure Refines (C : Ctx X) (q p : Prog X α) : Prop where
  out : ∀ Q g, p.wp C Q g → q.wp C Q g

namespace Refines
variable {C : Ctx X}

theorem refl (p : Prog X α) : Refines C p p := ⟨fun _ _ h => h⟩

theorem bind {q p : Prog X α} {f' f : α → Prog X β} (h : Refines C q p) (hf : ∀ a, Refines C (f' a) (f a)) : Refines C (q.bind f') (p.bind f) := ⟨fun Q g hw => by
  rw [Prog.wp_bind] at hw ⊢
  exact Prog.wp_mono (fun a g' ha => (hf a).out _ _ ha) (h.out _ _ hw)⟩

theorem tabM {n : ℕ} {f' f : Fin n → Prog X α} (h : ∀ i, Refines C (f' i) (f i)) : Refines C (tabM n f') (tabM n f) := by
  induction n with
  | zero => exact refl _
  | succ n ih => exact (h 0).bind fun a => (ih fun i => h i.succ).bind fun r => refl _

end Refines

/-- If the initialization is refined, the obligations stay met. -/
theorem VerifiedIf.refine {H : Ctx X → Prop} {A : Alg X} {G : X → Prop} {s t : Bool} {K : Cost} {al : Prop} (h : VerifiedIf H A G s t K al)
    {p : Prog X A.σ} (hp : ∀ C, Refines C p A.init) : VerifiedIf H { A with init := p } G s t K al := by
  obtain ⟨Inv, h⟩ := h
  refine ⟨Inv, fun C h1 h2 h3 h4 => ?_⟩
  obtain ⟨a, b, c⟩ := h C h1 h2 h3 h4
  exact ⟨a, fun g hg => (hp C).out _ _ (b g hg), c⟩

variable {D N : ℕ}

/-- A way to generate `N` points within the bounds without evaluating anything: whatever it draws and sees of the task, the points it returns are within the
bounds. It may draw numbers, look at the task, repair points with the generator it is given, and raise. -/
structure Feasible (B : Box D) (gen : Prog (Vec D) (Fin N → Vec D)) : Prop where
  out : ∀ C, Yields C gen fun pop => ∀ i, B.Mem (pop i)

/-- An initialization function that returns arrays, like `my_init` in examples/custom_init_population.py:15-18 and `default_numpy_init` (algorithm.py:24-40):
generate the points, evaluate them row by row (`np.apply_along_axis(task.eval, 1, pop)`). -/
def customNumpyInit (gen : Prog (Vec D) (Fin N → Vec D)) : Prog (Vec D) ((Fin N → Vec D) × (Fin N → Fl)) := do
  let pop ← gen
  if N = 0 then .throw .valueError
  else do
    let fpop ← tabM N fun i => Prog.eval (pop i)
    return (pop, fpop)

/-- An initialization function that returns individuals, like `default_individual_init` (algorithm.py:43-59): generate the points, make an individual of each
(which repairs and evaluates it: `Individual(x=x, task=task, rng=rng)`, algorithm.py:355-400). -/
def customIndividualInit (make : Vec D → Prog (Vec D) α) (gen : Prog (Vec D) (Fin N → Vec D)) : Prog (Vec D) (Fin N → α) := do
  let pop ← gen
  tabM N fun i => make (pop i)

/-- A feasible draw may give any point within the bounds. -/
theorem unifVec_any {C : Ctx (Vec D)} {B : Box D} {x : Vec D} (hx : B.Mem x) : Refines C (.pure x) (unifVec B.lo B.hi) := by
  have key : ∀ {n : ℕ} (lo hi x : Fin n → Fl), (∀ i, lo i ≤ x i ∧ x i ≤ hi i) →
      Refines C (.pure x : Prog (Vec D) (Fin n → Fl)) (tabM n fun i => Prog.unif (lo i) (hi i)) := by
    intro n
    induction n with
    | zero => exact fun lo hi x _ => ⟨fun Q g h => by rw [show x = fun i => i.elim0 from funext fun i => i.elim0]; exact h⟩
    | succ n ih =>
      refine fun lo hi x hx => ⟨fun Q g h => ?_⟩
      rw [tabM, Prog.wp_bind] at h
      have h0 := (h : opSpec C g (.unif (lo 0) (hi 0)) _).2 (x 0) fun _ => hx 0
      have h1 := (ih (fun i => lo i.succ) (fun i => hi i.succ) (fun i => x i.succ) fun i => hx i.succ).out _ _ (Prog.wp_bind.1 h0)
      have e : (Fin.cons (x 0) fun i => x i.succ : Fin (n + 1) → Fl) = x := funext fun i => Fin.cases rfl (fun _ => rfl) i
      rw [← e]
      exact h1
  exact key B.lo B.hi x hx

theorem tabM_any {C : Ctx (Vec D)} {B : Box D} {pop : Fin N → Vec D} (hpop : ∀ i, B.Mem (pop i)) :
    Refines C (.pure pop) (tabM N fun _ => unifVec B.lo B.hi) := by
  induction N with
  | zero => exact ⟨fun Q g h => by rw [show pop = fun i => i.elim0 from funext fun i => i.elim0]; exact h⟩
  | succ n ih =>
    refine ⟨fun Q g h => ?_⟩
    rw [tabM, Prog.wp_bind] at h
    have h0 := (unifVec_any (hpop 0)).out _ _ h
    have h1 := (ih (pop := fun i => pop i.succ) fun i => hpop i.succ).out _ _ (Prog.wp_bind.1 h0)
    have e : (Fin.cons (pop 0) fun i => pop i.succ : Fin (n + 1) → Vec D) = pop := funext fun i => Fin.cases rfl (fun _ => rfl) i
    rw [← e]
    exact h1

theorem customNumpy_refines {C : Ctx (Vec D)} {B : Box D} {gen : Prog (Vec D) (Fin N → Vec D)} (h : Feasible B gen) :
    Refines C (customNumpyInit gen) (defaultNumpyInit B N) := ⟨fun Q g hw => by
  unfold customNumpyInit
  unfold defaultNumpyInit at hw
  simp only [Prog.wp_bind'] at hw ⊢
  refine (h.out C).wp fun pop hpop => ?_
  exact (tabM_any hpop).out _ _ hw⟩

theorem customIndividual_refines {C : Ctx (Vec D)} {B : Box D} {make : Vec D → Prog (Vec D) α} {gen : Prog (Vec D) (Fin N → Vec D)} (h : Feasible B gen) :
    Refines C (customIndividualInit make gen) (tabM N fun _ => (unifVec B.lo B.hi).bind make) := ⟨fun Q g hw => by
  unfold customIndividualInit
  simp only [Prog.wp_bind']
  refine (h.out C).wp fun pop hpop => ?_
  exact (Refines.tabM fun i => (⟨fun Q g hw => by
    rw [Prog.wp_bind] at hw
    exact (unifVec_any (hpop i)).out _ _ hw⟩ : Refines C (make (pop i)) ((unifVec B.lo B.hi).bind make))).out _ _ hw⟩

/-- `Customized B A A'`: `A'` is `A` with an initialization function that generates points within the bounds in place of the default one. What the algorithm does
with the population it gets (`rest`) is the same. -/
inductive Customized (B : Box D) (A : Alg (Vec D)) : Alg (Vec D) → Prop
  | numpy {N : ℕ} (gen : Prog (Vec D) (Fin N → Vec D)) (rest : (Fin N → Vec D) × (Fin N → Fl) → Prog (Vec D) A.σ) (hg : Feasible B gen)
      (h : A.init = (defaultNumpyInit B N).bind rest) : Customized B A { A with init := (customNumpyInit gen).bind rest }
  | individual {α : Type} {N : ℕ} (gen : Prog (Vec D) (Fin N → Vec D)) (make : Vec D → Prog (Vec D) α) (rest : (Fin N → α) → Prog (Vec D) A.σ)
      (hg : Feasible B gen) (h : A.init = (tabM N fun _ => (unifVec B.lo B.hi).bind make).bind rest) :
      Customized B A { A with init := (customIndividualInit make gen).bind rest }

theorem Customized.verified {B : Box D} {A A' : Alg (Vec D)} (hc : Customized B A A') {H : Ctx (Vec D) → Prop} {G : Vec D → Prop} {s t : Bool} {K : Cost} {al : Prop}
    (h : VerifiedIf H A G s t K al) : VerifiedIf H A' G s t K al := by
  cases hc with
  | numpy gen rest hg hi => exact h.refine fun C => hi ▸ (customNumpy_refines hg).bind fun _ => .refl _
  | individual gen make rest hg hi => exact h.refine fun C => hi ▸ (customIndividual_refines hg).bind fun _ => .refl _

/-! ## C108 -/

variable [Arith] {opt : OptType} {B : Box D} {A A' : Alg (Vec D)} {k s t a i : Bool} {K : Cost}

/-- C108: with an initialization function that generates points within the bounds, nothing outside the bounds is evaluated (C25). -/
theorem C108_feasible_partial (hA : Covered opt B A k s t a true K) (hc : Customized B A A') (env : Env (Vec D)) (hR : ∀ rng k x, B.NotOut (env.repairFn rng k x))
    (main : Bool) (ncb fuel : ℕ) : ∀ c ∈ (A'.exec env main ncb fuel).2.calls, B.NotOut c.1 :=
  C25_feasible (hc.verified hA.verified) env B.NotOut (metBy_assumed_notOut _ _ _ (Or.inr id)) (fun _ h => h.notOut) hR main ncb fuel

/-- C108: the fitness returned is the best value the objective has returned (C26), those of the initial points included. -/
theorem C108_best (hA : Covered opt B A true s t a i K) (hc : Customized B A A') (env : Env (Vec D)) (hnn : NoNaN env) (main : Bool) (ncb fuel : ℕ)
    (out : RunOut (Vec D)) (x : Vec D) (f : Fl) (hrun : (A'.exec env main ncb fuel).1 = .ok out) (hres : out.result = some (x, f)) :
    f = (A'.exec env main ncb fuel).2.st.xf ∧ BestOf env.opt (values (A'.exec env main ncb fuel).2.calls) f :=
  C26_returned_is_best (hc.verified hA.verified) env (metBy_assumed _ _ _ _ (Or.inl rfl)) hnn main ncb fuel out x f hrun hres

/-- C108: the solution returned was evaluated and the fitness belongs to it (C27). -/
theorem C108_solution (hA : Covered opt B A k s t a i K) (hc : Customized B A A') (env : Env (Vec D)) (main : Bool) (ncb fuel : ℕ) (out : RunOut (Vec D))
    (x : Vec D) (f : Fl) (hrun : (A'.exec env main ncb fuel).1 = .ok out) (hres : out.result = some (x, f)) :
    (x, .ok f) ∈ (A'.exec env main ncb fuel).2.calls ∨ f = env.opt.mul .pinf :=
  C27_solution_fitness (hc.verified hA.verified) env (metBy_assumed _ _ _ _ (Or.inr id)) main ncb fuel out x f hrun hres

/-- C108: what callbacks are shown is in order and aligned (C18, C28), and the best fitness shown never gets worse (C29). -/
theorem C108_callbacks (hA : Covered opt B A true s t a i K) (hc : Customized B A A') (env : Env (Vec D)) (hnn : NoNaN env) (main : Bool) (ncb fuel : ℕ) :
    (∀ e ∈ (A'.exec env main ncb fuel).2.events, EventAligned (FitOK env.opt (A'.exec env main ncb fuel).2.calls) (a = true) e.2) ∧
    ((A'.exec env main ncb fuel).2.events.Pairwise fun a b => ∀ u v, a.2.best = some u → b.2.best = some v → v ≤ u) :=
  have h := C28_callback_log (hc.verified hA.verified) env True (metBy_assumed _ _ _ _ (Or.inl rfl)) main ncb fuel
  ⟨h.aligned, h.mono ⟨trivial, hnn⟩⟩

/-- C108: with `max_iters` or `max_evals` a run still ends (C17). -/
theorem C108_terminates (hA : Covered opt B A k s true a i K) (hc : Customized B A A') (env : Env (Vec D)) (hE : NoFuelError env) (m : ℕ)
    (hm : env.maxIters = some m ∨ 0 < K.lo ∧ env.maxEvals = some m) (main : Bool) (ncb fuel : ℕ) (hfuel : m < fuel) :
    (A'.exec env main ncb fuel).1 ≠ .error .outOfFuel := by
  rcases hm with hm | ⟨hlo, hm⟩
  · exact (C17_terminates (hc.verified hA.verified) env (metBy_assumed _ _ _ _ (Or.inr id)) hE m hm main ncb fuel hfuel).1
  · exact C17_terminates_max_evals (hc.verified hA.verified) hlo env (metBy_assumed _ _ _ _ (Or.inr id)) hE m hm main ncb fuel hfuel

/-- C108: the outcome is determined by the seed, if that of the algorithm is (C31). -/
theorem C108_seeded (hA : Covered opt B A k true t a i K) (hc : Customized B A A') (env : Env (Vec D)) (r : Rng) (main : Bool) (ncb fuel : ℕ) :
    A'.exec (env.withEntropy r) main ncb fuel = A'.exec env main ncb fuel :=
  C31_reproducible (hc.verified hA.verified) env (metBy_assumed _ _ _ _ (Or.inr id)) r main ncb fuel

/-- The algorithms whose population comes from an initialization function that returns arrays, with the size of the population they ask it for. -/
inductive TakesArrays (B : Box D) : Alg (Vec D) → ℕ → Prop
  | aso (n p fuel) : TakesArrays B (ASO.alg B n p fuel) n
  | ba (n p) : TakesArrays B (BA.alg B n p) n
  | aba (n p) : TakesArrays B (BAT.alg B n p) n
  | saba (n p q) : TakesArrays B (BAT.algS B n p q) n
  | hsaba (n p q strat f cr) : TakesArrays B (BAT.algHS B n p q strat f cr) n
  | hba (n p c f cr) : TakesArrays B (BAT.algH B n p c f cr) n
  | plba (n) : TakesArrays B (BAT.algP B n) n
  | bea (n p) : TakesArrays B (BEA.alg B n p) n
  | bfo (n p k0 j0) : TakesArrays B (BFO.alg B n p k0 j0) n
  | cro (n p) : TakesArrays B (CRO.alg B n p) n
  | cs (n pa) : TakesArrays B (CS.alg B n pa) n
  | cso (n p) : TakesArrays B (CSO.alg B n p) n
  | fa (n p) : TakesArrays B (FA.alg B n p) n
  | foa (n p) : TakesArrays B (FOA.alg B n p) n
  | fpa (n p) : TakesArrays B (FPA.alg B n p) n
  | bbfwa (p) : TakesArrays B (FWA.bbAlg B p) 1
  | fwa (n p) : TakesArrays B (FWA.alg B n p) n
  | efwa (n p a0 a1) : TakesArrays B (FWA.algE B n p a0 a1) n
  | gsa (n p) : TakesArrays B (GSA.alg B n p) n
  | gso (n p) : TakesArrays B (GSO.alg B n p) n
  | gwo (n) : TakesArrays B (GWO.alg B n) n
  | hho (n levy) : TakesArrays B (HHO.alg B n levy) n
  | hs (n p) : TakesArrays B (HS.alg B n p) n
  | kh (n p) : TakesArrays B (KH.alg B n p) n
  | mbo (n p) : TakesArrays B (MBO.alg B n p) n
  | mfo (n) : TakesArrays B (MFO.alg B n) n
  | mke3 (n fc m) : TakesArrays B (MKE.alg3 B n fc m) n
  | mshoa (n p) : TakesArrays B (MSHOA.alg B n p) n
  | mts (n p) : TakesArrays B (MTS.alg B n p) n
  | nm (n p) : TakesArrays B (NM.alg B n p) n
  | pso (n p u c m) : TakesArrays B (PSO.alg B n p u c m) n
  | ovcpso (n p) : TakesArrays B (PSO.algO B n p) n
  | clpso (n p) : TakesArrays B (PSO.algC B n p) n
  | sca (n p) : TakesArrays B (SCA.alg B n p) n

/-- C108 applies to them: whatever generates points within the bounds can take the place of the default initialization. -/
theorem TakesArrays.customized {n : ℕ} (h : TakesArrays B A n) (gen : Prog (Vec D) (Fin n → Vec D)) (hg : Feasible B gen) :
    ∃ rest, A.init = (defaultNumpyInit B n).bind rest ∧ Customized B A { A with init := (customNumpyInit gen).bind rest } := by
  suffices ∃ rest, A.init = (defaultNumpyInit B n).bind rest from this.imp fun rest hr => ⟨hr, .numpy gen rest hg hr⟩
  cases h with
  | ovcpso N p =>
    exact ⟨_, Prog.bind_assoc' _ _ _⟩
  | clpso N p =>
    exact ⟨_, Prog.bind_assoc' _ _ _⟩
  | _ => exact ⟨_, rfl⟩

/-- The algorithms whose population comes from an initialization function that returns individuals, with the size of the population they ask it for. -/
inductive TakesIndividuals (opt : OptType) (B : Box D) : Alg (Vec D) → ℕ → Prop
  | ga (n p fuel) : TakesIndividuals opt B (GA.alg opt B n p fuel) n
  | mke (n p v2) : TakesIndividuals opt B (MKE.alg opt B n p v2) n
  | ca (n p) : TakesIndividuals opt B (CA.alg opt B n p) n
  | loa (n p) : TakesIndividuals opt B (LOA.alg opt B n p) n
  | de (n strat f cr) : TakesIndividuals opt B (DE.alg opt B n strat f cr) n
  | deMulti (n strats f cr) : TakesIndividuals opt B (DE.algMulti opt B n strats f cr) n
  | deDyn (n strat f cr pMax rp) : TakesIndividuals opt B (DE.algDyn opt B n strat f cr pMax rp) n
  | deDynMulti (n strats f cr pMax rp) : TakesIndividuals opt B (DE.algDynMulti opt B n strats f cr pMax rp) n
  | deAging (n strat f cr p age) : TakesIndividuals opt B (DE.algAging opt B n strat f cr p age) n
  | jde (n strat p) : TakesIndividuals opt B (JDE.alg opt B n strat p) n
  | jdeMulti (n strats f cr) : TakesIndividuals opt B (JDE.algMulti opt B n strats f cr) n
  | shade (p) : TakesIndividuals opt B (SHADE.alg opt B p) p.N

omit [Arith] in
theorem DE.init_eq {E : Type} (opt : OptType) (B : Box D) (n : ℕ) (ext : E) : DE.init opt B n ext =
    (tabM n fun _ => (unifVec B.lo B.hi).bind fun x => (Indiv.new opt x).bind fun i => .pure (⟨i.x, i.f, ext⟩ : DE.Ind D E)).bind fun p => .pure (List.ofFn p) :=
  congrArg (fun q => (tabM n q).bind fun p => Prog.pure (List.ofFn p)) (funext fun _ => Prog.bind_assoc' _ _ _)

/-- C108 applies to them. `wrap` makes an individual of the type the algorithm asks for from an evaluated one. -/
theorem TakesIndividuals.customized {n : ℕ} (h : TakesIndividuals opt B A n) (gen : Prog (Vec D) (Fin n → Vec D)) (hg : Feasible B gen) :
    ∃ (α : Type) (wrap : Indiv D → α) (rest : (Fin n → α) → Prog (Vec D) A.σ),
      A.init = (tabM n fun _ => (unifVec B.lo B.hi).bind fun x => (Indiv.new opt x).bind fun i => .pure (wrap i)).bind rest ∧
      Customized B A { A with init := (customIndividualInit (fun x => (Indiv.new opt x).bind fun i => .pure (wrap i)) gen).bind rest } := by
  suffices ∃ (α : Type) (wrap : Indiv D → α) (rest : (Fin n → α) → Prog (Vec D) A.σ),
      A.init = (tabM n fun _ => (unifVec B.lo B.hi).bind fun x => (Indiv.new opt x).bind fun i => .pure (wrap i)).bind rest from by
    obtain ⟨α, wrap, rest, hr⟩ := this
    exact ⟨α, wrap, rest, hr, .individual gen _ rest hg hr⟩
  have hd : ∀ n, defaultIndividualInit opt B n = tabM n fun _ => (unifVec B.lo B.hi).bind fun x => (Indiv.new opt x).bind fun i => .pure (id i) := fun n =>
    congrArg (tabM n) (funext fun _ => congrArg (Prog.bind _) (funext fun x => (Prog.bind_pure' _).symm))
  cases h with
  | ga n p fuel => exact ⟨_, id, .pure, (hd n).trans (Prog.bind_pure' _).symm⟩
  | mke n p v2 => exact ⟨_, id, _, congrArg (fun q => Prog.bind q _) (hd n)⟩
  | loa n p => exact ⟨_, id, _, congrArg (fun q => Prog.bind q _) (hd n)⟩
  | ca n p =>
    refine ⟨_, fun i => ⟨i.x, i.f, i.x, i.f, p.supply, p.supply, p.endurance, p.endurance, 0⟩, .pure, .trans ?_ (Prog.bind_pure' _).symm⟩
    exact congrArg (tabM n) (funext fun _ => Prog.bind_assoc' _ _ _)
  | shade p =>
    exact ⟨_, _, _, (congrArg (fun q => Prog.bind q _) (DE.init_eq opt B p.N p.default)).trans (Prog.bind_assoc' _ _ _)⟩
  | _ => exact ⟨_, _, _, DE.init_eq _ _ _ _⟩

/-! ### Points outside the bounds -/

omit [Arith] in
/-- C108 fails for functions that generate points outside the bounds: the library evaluates what an initialization function that returns arrays generates, without
repairing it. The first point is always evaluated, if the task has not stopped. -/
theorem C108_unrepaired_false (A : Alg (Vec D)) {n : ℕ} (gen : Prog (Vec D) (Fin n → Vec D)) (rest : (Fin n → Vec D) × (Fin n → Fl) → Prog (Vec D) A.σ)
    (env : Env (Vec D)) (pop : Fin n → Vec D) (w : World (Vec D)) (hgen : gen.run env (World.init env.opt) = (.ok pop, w))
    (hs : stoppingCondition env.toTaskCfg w.st = false) (hn : 0 < n) (main : Bool) (fuel : ℕ) :
    ∃ r, (pop ⟨0, hn⟩, r) ∈ (({ A with init := (customNumpyInit gen).bind rest } : Alg (Vec D)).exec env main 0 fuel).2.calls := by
  obtain ⟨m, rfl⟩ : ∃ m, n = m + 1 := ⟨n - 1, by omega⟩
  rw [exec_eq]
  have he : ∃ r, (pop 0, r) ∈ ((Prog.eval (pop 0)).run env w).2.calls := by
    rw [Prog.run_eval]
    rcases evalTask_cases env.toTaskCfg w.st (pop 0) with ⟨h, -⟩ | ⟨-, e, -, h⟩ | ⟨-, r, -, h⟩
    · cases hs.symm.trans h
    · exact ⟨_, by rw [h]; simp; exact .inr rfl⟩
    · exact ⟨_, by rw [h]; simp; exact .inr rfl⟩
  obtain ⟨r, hr⟩ := he
  refine ⟨r, ?_⟩
  have hb : ∀ {α β : Type} (p : Prog (Vec D) α) (f : α → Prog (Vec D) β) w, (p.run env w).2.calls <+: ((p.bind f).run env w).2.calls := fun p f w => by
    rw [Prog.run_bind]
    split
    · rename_i a w' h; rw [h]; exact calls_prefix _ _ _
    · rename_i e w' h; rw [h]
  have h1 : ((Prog.eval (pop 0)).run env w).2.calls <+: ((customNumpyInit gen).run env (World.init env.opt)).2.calls := by
    show _ <+: ((Prog.bind gen _).run env _).2.calls
    rw [Prog.run_bind, hgen]
    simp only [Nat.succ_ne_zero, if_false]
    refine List.IsPrefix.trans ?_ (hb _ _ _)
    rw [tabM]
    exact hb _ _ _
  have h2 := h1.trans (hb _ rest _)
  refine (h2.trans ?_).subset hr
  simp only [Alg.execBody, Alg.body, Prog.bind_def]
  exact hb _ _ _

/-- `my_init` (examples/custom_init_population.py:15-18): `0.2 + rng.random((population_size, task.dimension)) * task.range`. -/
def myInit (B : Box D) (n : ℕ) : Prog (Vec D) (Fin n → Vec D) := tabM n fun _ => do
  let r ← randVec D
  return fun j => lit 1 5 + r j * (B.hi j - B.lo j)

/-- Cuckoo search with that initialization function. -/
def Ex.mine : Alg (Vec 1) :=
  letI := Ex.arith
  { Ex.cs with init := (customNumpyInit (myInit (Ex.box 1) 3)).bind fun r => .pure ⟨r.1, r.2⟩ }

/-- C108 fails for the function of the library's own example: with the bounds -2 and 2 it generates, and has evaluated, a point outside them, although the repair
function puts everything it is given within the bounds. (With the default initialization nothing outside the bounds is evaluated, C25.) -/
theorem C108_example_false : (∀ rng k x, (Ex.box 1).NotOut ((Ex.env2 (D := 1)).repairFn rng k x)) ∧
    ∃ c ∈ (Ex.mine.exec Ex.env2 true 0 5).2.calls, ¬ (Ex.box 1).NotOut c.1 := by
  refine ⟨Ex.env2_repair, ?_⟩
  have h : ((Ex.mine.exec Ex.env2 true 0 5).2.calls.any fun c => decide (Fl.fin 2 < c.1 0)) = true := by decide +kernel
  obtain ⟨c, hc, h⟩ := List.any_eq_true.1 h
  exact ⟨c, hc, fun hn => (hn 0).2 (of_decide_eq_true h)⟩

/-- The default initialization is of the modelled form, with a feasible generator. -/
theorem Feasible.uniform (B : Box D) (n : ℕ) : Feasible B (tabM n fun _ => unifVec B.lo B.hi : Prog (Vec D) (Fin n → Vec D)) :=
  ⟨fun _ => ⟨fun _ => wp_tabM_pure (fun _ x => B.Mem x) (fun _ => wp_unifVec_of B.le fun _ hr => ⟨rfl, hr⟩) fun _ h => ⟨h, rfl⟩⟩⟩

example (B : Box D) (n : ℕ) : customNumpyInit (tabM n fun _ => unifVec B.lo B.hi) = defaultNumpyInit B n := rfl

/-- Cuckoo search started at three corners of the search space, in a run of two iterations. -/
example : ∃ A', Customized (Ex.box 1) Ex.cs A' ∧ A'.okIters Ex.env2 2 5 = some 2 ∧
    values (A'.exec Ex.env2 true 0 5).2.calls ≠ values (Ex.cs.exec Ex.env2 true 0 5).2.calls := by
  letI := Ex.arith
  refine ⟨_, .numpy (A := Ex.cs) (N := 3) (.pure fun i _ => if i = 0 then .fin 2 else .fin (-2)) (fun r => .pure (⟨r.1, r.2⟩ : CS.St 1 3)) ⟨fun _ => .pure fun i j => ?_⟩ rfl, ?_, ?_⟩
  · by_cases h : i = 0
    · rw [if_pos h]; decide +kernel +revert
    · rw [if_neg h]; decide +kernel +revert
  · decide +kernel
  · decide +kernel

end NiaPy
