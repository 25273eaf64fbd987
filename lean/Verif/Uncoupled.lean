import Verif.Summary
import Verif.Algo.RS
import Verif.Algo.HDE
import Verif.Algo.DynFWA

/-! # Algorithms that may return a fitness beside a solution it does not belong to

`Covered` (in `Summary`) lists algorithms whose incumbent always carries the fitness of its solution. For the algorithms listed
here that fails (RandomSearch: C56; MultipleTrajectorySearch: only under the hypotheses of C74; DifferentialEvolutionMTS: C76;
DynamicFireworksAlgorithm and DynamicFireworksAlgorithmGauss: C78), but the best *value* is kept all
the same, and everything that does not relate a fitness to its solution still holds: C17, C25, C26, C30, C31. -/

namespace NiaPy

variable [Arith] {D : ℕ} {B : Box D} {A : Alg (Vec D)} {s t : Bool} {K : Cost}

/-- The algorithms listed, with the flags of `Covered` that make sense here: the seeded generator is passed to `task.repair`, there
is no unbounded rejection loop; and the numbers of evaluations. -/
inductive Uncoupled (B : Box D) : Alg (Vec D) → Bool → Bool → Cost → Prop
  | rs (fuel) (haff : AffineLaw B) : Uncoupled B (RS.alg B fuel) true false (.exact 1 1)
  | mts (N p) : Uncoupled B (MTS.alg B N p) true p.bounded (MTS.cost D N p)
  | hde (opt N p) {strat : DE.Strategy D} (hs : DE.QuietStrategy strat) (f cr) :
      Uncoupled B (HDE.alg opt B N p strat f cr) true p.bounded (HDE.cost D N 1 p)
  | hdeMulti (opt N p) {strats : List (DE.Strategy D)} (hs : ∀ s ∈ strats, DE.QuietStrategy s) (f cr) :
      Uncoupled B (HDE.algMulti opt B N p strats f cr) true p.bounded (HDE.cost D N strats.length p)
  | hdeDyn (opt N p) {strat : DE.Strategy D} (hs : DE.QuietStrategy strat) (f cr pMax rp) :
      Uncoupled B (HDE.algDyn opt B N p strat f cr pMax rp) true p.bounded (HDE.costDyn D N 1 p)
  | hdeDynMulti (opt N p) {strats : List (DE.Strategy D)} (hs : ∀ s ∈ strats, DE.QuietStrategy s) (f cr pMax rp) :
      Uncoupled B (HDE.algDynMulti opt B N p strats f cr pMax rp) true p.bounded (HDE.costDyn D N strats.length p)
  | dynFwa (N p gauss up down) :
      Uncoupled B (FWA.algD B N p gauss up down) true true ⟨N, N + (if gauss then p.gauss else 0) + 1, none⟩

theorem Uncoupled.verified (h : Uncoupled B A s t K) : VerifiedIf (FWA.LooseInside B) A B.Mem s t K False := by
  cases h with
  | rs fuel haff => exact (RS.verified B haff fuel).imp (fun _ h => h.1) fun _ h => h
  | mts N p => exact (MTS.verified B N p).imp (fun _ h => .inr (.inl h.1)) fun _ h => h
  | hde opt N p hs f cr => exact (HDE.verified opt B N p hs f cr).imp (fun _ h => .inl h.1) fun _ h => h.elim
  | hdeMulti opt N p hs f cr => exact (HDE.verifiedMulti opt B N p hs f cr).imp (fun _ h => .inl h.1) fun _ h => h.elim
  | hdeDyn opt N p hs f cr pMax rp => exact (HDE.verifiedDyn opt B N p hs f cr pMax rp).imp (fun _ h => .inl h.1) fun _ h => h.elim
  | hdeDynMulti opt N p hs f cr pMax rp =>
    exact (HDE.verifiedDynMulti opt B N p hs f cr pMax rp).imp (fun _ h => .inl h.1) fun _ h => h.elim
  | dynFwa N p gauss up down => exact (FWA.verifiedD B N p gauss up down).imp (fun _ h => h) fun _ h => h

private theorem met (env : Env (Vec D)) (trk : Prop) : MetBy (FWA.LooseInside B) env trk (fun _ => True) False :=
  fun _ _ _ hG _ h => ⟨h id, fun _ _ => hG ▸ trivial⟩

private theorem met_notOut (env : Env (Vec D)) (trk : Prop) : MetBy (FWA.LooseInside B) env trk B.NotOut False :=
  fun _ _ _ hG _ h => ⟨h id, fun _ hx => hG ▸ hx⟩

/-- C17: with `max_iters = m` a run ends, after at most `m` counted iterations. -/
theorem C17_uncoupled (hA : Uncoupled B A s true K) (env : Env (Vec D)) (hE : NoFuelError env) (m : ℕ)
    (hm : env.maxIters = some m) (main : Bool) (ncb fuel : ℕ) (hfuel : m < fuel) :
    (A.exec env main ncb fuel).1 ≠ .error .outOfFuel ∧ (A.exec env main ncb fuel).2.st.iters ≤ m :=
  C17_terminates hA.verified env (P := fun _ => True) (sh := False) (met _ _) hE m hm main ncb fuel hfuel

/-- C17: with `max_evals = m`, an algorithm that evaluates something in every iteration ends as well. -/
theorem C17_uncoupled_evals (hA : Uncoupled B A s true K) (hlo : 0 < K.lo) (env : Env (Vec D)) (hE : NoFuelError env) (m : ℕ)
    (hm : env.maxEvals = some m) (main : Bool) (ncb fuel : ℕ) (hfuel : m < fuel) : (A.exec env main ncb fuel).1 ≠ .error .outOfFuel :=
  C17_terminates_max_evals hA.verified hlo env (P := fun _ => True) (sh := False) (met _ _) hE m hm main ncb fuel hfuel

/-- C18: the events are the documented ones in the documented order; all callbacks see the same event. -/
theorem C18_uncoupled (hA : Uncoupled B A s t K) (env : Env (Vec D)) (main : Bool) (ncb fuel n i : ℕ) (e : Event (Vec D))
    (h : (A.exec env main ncb fuel).2.events[n]? = some (i, e)) :
    i = n % ncb ∧ PhaseOK (n / ncb) e ∧
      (e = .afterRun → (A.exec env main ncb fuel).2.events.length ≤ (n / ncb + 1) * ncb) ∧
      ∀ m j e', (A.exec env main ncb fuel).2.events[m]? = some (j, e') → n / ncb = m / ncb → e = e' := by
  have hl := callback_log hA.verified env False (P := fun _ => True) (sh := False) (met _ _) main ncb fuel
  refine ⟨(hl.order n i e h).1, (hl.order n i e h).2, fun he => ?_, fun m j e' h' hnm => hl.same n m i j e e' h h' hnm⟩
  subst he
  exact hl.last n i h

/-- C29: the best fitness shown to callbacks never gets worse. -/
theorem C29_uncoupled (hA : Uncoupled B A s t K) (env : Env (Vec D)) (hnn : NoNaN env) (main : Bool) (ncb fuel : ℕ) :
    (A.exec env main ncb fuel).2.events.Pairwise fun a b => ∀ u v, a.2.best = some u → b.2.best = some v → v ≤ u :=
  (callback_log hA.verified env True (P := fun _ => True) (sh := False) (met _ _) main ncb fuel).mono ⟨trivial, hnn⟩

/-- C25: every solution passed to the objective, in any run (also one that raises), is within the bounds, if the repair function
leads there. -/
theorem C25_uncoupled (hA : Uncoupled B A s t K) (env : Env (Vec D)) (hR : ∀ rng k x, B.NotOut (env.repairFn rng k x))
    (main : Bool) (ncb fuel : ℕ) : ∀ c ∈ (A.exec env main ncb fuel).2.calls, B.NotOut c.1 :=
  C25_feasible hA.verified env B.NotOut (met_notOut _ _) (fun _ h => h.notOut) hR main ncb fuel

/-- C26: the fitness returned is `task.x_f`, the best value the objective has returned. -/
theorem C26_uncoupled (hA : Uncoupled B A s t K) (env : Env (Vec D)) (hnn : NoNaN env) (main : Bool) (ncb fuel : ℕ)
    (out : RunOut (Vec D)) (x : Vec D) (f : Fl) (hrun : (A.exec env main ncb fuel).1 = .ok out) (hres : out.result = some (x, f)) :
    f = (A.exec env main ncb fuel).2.st.xf ∧ BestOf env.opt (values (A.exec env main ncb fuel).2.calls) f :=
  C26_returned_is_best hA.verified env (P := fun _ => True) (sh := False) (met _ _) hnn main ncb fuel out x f hrun hres

/-- C30: the number of evaluations of a run lies between the bounds given in `Uncoupled`. -/
theorem C30_uncoupled (hA : Uncoupled B A s t K) (env : Env (Vec D)) (main : Bool) (ncb fuel : ℕ) (out : RunOut (Vec D))
    (res : Vec D × Fl) (hrun : (A.exec env main ncb fuel).1 = .ok out) (hres : out.result = some res) (hmi : env.maxIters ≠ some 0) :
    let fin := (A.exec env main ncb fuel).2
    (∀ h, K.hi = some h → fin.calls.length ≤ K.init + fin.st.iters * h) ∧
    (¬ Spent env fin.st → K.init + fin.st.iters * K.lo ≤ fin.calls.length) :=
  C30_evaluations hA.verified env (P := fun _ => True) (sh := False) (met _ _) main ncb fuel out res hrun hres hmi

/-- C31: a run with a given seed does not depend on the operating system's entropy. -/
theorem C31_uncoupled (hA : Uncoupled B A true t K) (env : Env (Vec D)) (r : Rng) (main : Bool) (ncb fuel : ℕ) :
    A.exec (env.withEntropy r) main ncb fuel = A.exec env main ncb fuel :=
  C31_reproducible hA.verified env (P := fun _ => True) (sh := False) (met _ _) r main ncb fuel

/-! ## The hypotheses are satisfiable -/

/-- A run of DynNpDifferentialEvolutionMTS. -/
example : letI := Ex.arith
    Uncoupled (Ex.box 1) (HDE.algDyn .minimization (Ex.box 1) 5 (MTS.Ex.par [.ls1, .ls3]) DE.crossRand1 (.fin (1 / 2)) (.fin (1 / 2)) 1 2) true true
      (HDE.costDyn 1 5 1 (MTS.Ex.par [.ls1, .ls3])) ∧
    (match (HDE.algDyn .minimization (Ex.box 1) 5 (MTS.Ex.par [.ls1, .ls3]) DE.crossRand1 (.fin (1 / 2)) (.fin (1 / 2)) 1 2).exec
        (Ex.env2 2 (some 60)) true 1 5 with
      | (.ok ⟨some (_, f), _⟩, w) => decide (f ≠ .pinf ∧ w.st.iters = 2 ∧ 15 < w.calls.length ∧ w.events.length = 6)
      | _ => false) = true :=
  letI := Ex.arith
  ⟨.hdeDyn _ 5 (MTS.Ex.par [.ls1, .ls3]) (DE.quiet_strategy 3 _) _ _ _ _, by decide +kernel⟩

/-- A run of multiple trajectory search that evaluates, iterates and returns a solution. -/
example : letI := Ex.arith
    Uncoupled (Ex.box 1) (MTS.alg (Ex.box 1) 3 (MTS.Ex.par [.ls1, .ls2, .ls3])) true true (MTS.cost 1 3 (MTS.Ex.par [.ls1, .ls2, .ls3])) ∧
    NoNaN (Ex.env2 (D := 1)) ∧ (Ex.env2 (D := 1)).maxIters = some 2 ∧ (∀ rng k x, (Ex.box 1).NotOut ((Ex.env2 (D := 1)).repairFn rng k x)) ∧
    (match (MTS.alg (Ex.box 1) 3 (MTS.Ex.par [.ls1, .ls2, .ls3])).exec Ex.env2 true 1 5 with
      | (.ok ⟨some (_, f), _⟩, w) => decide (f ≠ .pinf ∧ w.st.iters = 2 ∧ 3 < w.calls.length ∧ w.events.length = 6)
      | _ => false) = true :=
  letI := Ex.arith
  ⟨.mts 3 (MTS.Ex.par [.ls1, .ls2, .ls3]), Ex.env2_noNaN _ _, rfl, fun _ _ _ => MTS.Ex.env2_inside _ _ _ _ _, by decide +kernel⟩

end NiaPy
