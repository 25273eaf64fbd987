import Verif.CustomSearch

/-!
# Operators supplied by the user (C109)

Some algorithms take functions as parameters: strategies of differential evolution (de.py:271-295, jde.py, hba.py:66-72, hsaba.py:70-76), `age` (de.py:650-674),
selection, crossover and mutation of the genetic algorithm (ga.py:258-282), the cooling method of simulated annealing (sa.py:96-112), crossover and brooding of
coral reefs optimization (cro.py:140-175), the local searches of multiple trajectory search (`CustomSearch`). A function of the user is modelled as an arbitrary program that evaluates nothing (`Quiet`): it may draw numbers
from the generator it is given, look at the task, repair points with that generator and raise; it comes to an end and does not modify its arguments. For coral reefs optimization, whose operators return values too, it is such a program
followed by the evaluation of the points it returns, as the functions of the library do (cro.py:32, 54).
-/

namespace NiaPy
variable [Arith] {D N : ℕ}

namespace GA

/-- A selection function: population, index, best solution (the size of the tournament and the generator are fixed, ga.py:364). -/
abbrev SelFn (D N : ℕ) := (Fin N → Indiv D) → Fin N → Vec D → Prog (Vec D) (Vec D)

/-- A crossover or mutation function: population, index (the rate, the task and the generator are fixed, ga.py:365-366). -/
abbrev VarFn (D N : ℕ) := (Fin N → Indiv D) → Fin N → Prog (Vec D) (Vec D)

/-- The loop body of `GeneticAlgorithm.run_iteration` (ga.py:363-370). -/
def stepU (sel : SelFn D N) (cross mutate : VarFn D N) (pop : Fin N → Indiv D) (i : Fin N) (b : Vec D × Fl) : Prog (Vec D) (Indiv D × Vec D × Fl) := do
  let _ ← sel pop i b.1
  let _ ← cross pop i
  let x ← mutate pop i
  let ind ← Indiv.evaluate ⟨x, .pinf⟩
  return (ind, if ind.f < b.2 then getBest1 ind.x ind.f b.1 b.2 else b)

/-- `GeneticAlgorithm.run_iteration` (ga.py:338-371) with arbitrary operators. -/
def iterU (sel : SelFn D N) (cross mutate : VarFn D N) (pop : Fin N → Indiv D) (xb : Vec D) (fxb : Fl) : Prog (Vec D) ((Fin N → Indiv D) × Vec D × Fl) :=
  forFin N (fun i a => do
    let r ← stepU sel cross mutate pop i a.2
    return (Function.update a.1 i r.1, r.2)) (pop, xb, fxb)

/-- The genetic algorithm with arbitrary operators. -/
def algU (opt : OptType) (B : Box D) (N : ℕ) (sel : SelFn D N) (cross mutate : VarFn D N) : Alg (Vec D) where
  σ := Fin N → Indiv D
  init := defaultIndividualInit opt B N
  pop s := List.ofFn fun i => (s i).x
  fit s := List.ofFn fun i => (s i).f
  iter := iterU sel cross mutate

/-- The operators of the library are a special case. -/
theorem algU_eq (opt : OptType) (B : Box D) (N : ℕ) (p : Par) (fuel : ℕ) :
    algU opt B N p.sel.run (p.cross.run fuel) (p.mutation.run B) = alg opt B N p fuel := rfl

variable {C : Ctx (Vec D)}

/-- `N` evaluations in the beginning and per iteration, everything repaired, whatever the operators are. -/
theorem verifiedU (opt : OptType) (B : Box D) (N : ℕ) {sel : SelFn D N} {cross mutate : VarFn D N} (h1 : ∀ C pop i x, Quiet C (sel pop i x))
    (h2 : ∀ C pop i, Quiet C (cross pop i)) (h3 : ∀ C pop i, Quiet C (mutate pop i)) :
    Verified (algU opt B N sel cross mutate) (fun _ => False) true true (.exact N N) := by
  refine ⟨fun C s b => ∀ i, C.Fit b (s i).x (s i).f, fun C hG hent _ => ⟨fun s b h => forall₂_ofFn h, fun g hg => ?_, ?_⟩⟩
  · exact wp_initInd hg fun r g' _ h2 h3 h4 => ⟨h2, h3, h4⟩
  · intro s xb fxb g hI hF hc
    refine Prog.wp_mono (fun a g' h => ⟨h.1, h.2.1.fit, h.2.1.eq, Cost.ok_exact h.2.2⟩)
      (wp_forFin (σ := (Fin N → Indiv D) × Vec D × Fl) (fun k a g' => (∀ i, C.Fit g'.b (a.1 i).x (a.1 i).f) ∧ Inc C a.2.1 a.2.2 g' ∧ g'.c = g.c + k)
        ⟨hI, ⟨hF, hc⟩, rfl⟩ ?_)
    rintro i ⟨pop, xb, fxb⟩ g ⟨e1, e2, e3⟩
    simp only [stepU, Prog.wp_bind']
    refine (h1 ..).wp fun _ _ => (h2 ..).wp fun _ _ => (h3 ..).wp fun x _ => ?_
    refine wp_evaluate fun y v hy hv => ?_
    refine ⟨fun j => ?_, ?_, by simp [Ghost.eval, e3, add_assoc]⟩
    · by_cases hj : j = i
      · subst hj; simpa using Ctx.Fit.new hv
      · simpa [hj] using (e1 j).eval v
    · simp only
      by_cases hlt : v < fxb
      · rw [if_pos hlt]; exact e2.leq hv
      · rw [if_neg hlt]; exact e2.keep_of_not_lt hv hlt

/-- What the operators of selection and crossover return does not matter: replace it by anything else and nothing changes, in any run. (They matter only by the
random numbers they draw and the exceptions they raise.) -/
theorem C109_ga_ignored_false (opt : OptType) (B : Box D) (N : ℕ) (sel : SelFn D N) (cross mutate : VarFn D N) (f : (Fin N → Indiv D) → Fin N → Vec D → Vec D → Vec D)
    (g : (Fin N → Indiv D) → Fin N → Vec D → Vec D) :
    algU opt B N (fun pop i xb => (sel pop i xb).bind fun x => .pure (f pop i xb x)) (fun pop i => (cross pop i).bind fun x => .pure (g pop i x)) mutate =
      algU opt B N sel cross mutate := by
  have h : stepU (fun pop i xb => (sel pop i xb).bind fun x => .pure (f pop i xb x)) (fun pop i => (cross pop i).bind fun x => .pure (g pop i x)) mutate =
      stepU sel cross mutate := by
    funext pop i b
    simp only [stepU, Prog.bind_def, Prog.bind_assoc', Prog.bind_pure']
    rfl
  unfold algU iterU
  rw [h]

end GA

namespace SA

/-- `SimulatedAnnealing.run_iteration` (sa.py:170-204) with an arbitrary cooling method: current temperature to next temperature (`starting_temperature` and
`delta_temperature` are fixed, `max_evals` it may look up). -/
def iterU (delta : Fl) (cooling : Fl → Prog (Vec D) Fl) (s : One D Fl) (xb : Vec D) (fxb : Fl) : Prog (Vec D) (One D Fl × Vec D × Fl) := do
  let u ← randVec D
  let c ← Prog.repair fun j => s.x j - delta / Fl.ofNat 2 + u j * delta
  let v ← Prog.eval c
  let r ← Prog.rand
  let t ← cooling s.ext
  let s' : One D Fl := if accept s.ext (v - s.f) r then ⟨c, v, t⟩ else ⟨s.x, s.f, t⟩
  return (s', getBest1 s'.x s'.f xb fxb)

/-- Simulated annealing with an arbitrary cooling method. -/
def algU (B : Box D) (t0 delta : Fl) (cooling : Fl → Prog (Vec D) Fl) : Alg (Vec D) where
  σ := One D Fl
  init := initOne B t0
  pop s := [s.x]
  fit s := [s.f]
  iter := iterU delta cooling

/-- The cooling methods of the library are a special case. -/
theorem algU_eq (B : Box D) (p : Par) : algU B p.t0 p.delta (fun t => Prog.look.bind fun w => .pure (cool p w t)) = alg B p := by
  have h : iterU p.delta (fun t => Prog.look.bind fun w => .pure (cool p w t)) = iter (D := D) p := by
    funext s xb fxb
    simp only [iterU, iter, Prog.bind_def, Prog.bind_assoc', Prog.bind_pure']
    rfl
  unfold algU alg
  rw [h]

theorem verifiedU (B : Box D) (hsub : SubNeg) (t0 delta : Fl) {cooling : Fl → Prog (Vec D) Fl} (h : ∀ C t, Quiet C (cooling t)) :
    Verified (algU B t0 delta cooling) (Sampled B) true true (.exact 1 1) := by
  refine ⟨fun C s b => C.Fit b s.x s.f, fun C hG hent _ => ⟨fun s b h => .cons h .nil, fun g hg => wp_initOne hG hg, ?_⟩⟩
  intro s xb fxb g hI hF hc
  have hinc : Inc C xb fxb g := ⟨hF, hc⟩
  simp only [algU, iterU, Prog.wp_bind']
  refine Yields.randVec.wp fun u _ => Yields.repair.wp fun c hcG => ?_
  rw [Prog.wp_eval]
  refine ⟨hcG, fun v hv => ?_⟩
  refine Yields.rand.wp fun r _ => (h ..).wp fun t _ => ?_
  simp only [Prog.wp_pure']
  split
  · exact ⟨.new hv, (hinc.leq hv).fit, (hinc.leq hv).eq, Cost.ok_exact rfl⟩
  · rename_i hacc
    have hnl : ¬ v < s.f := fun h => hacc (by simp [accept, hsub _ _ h])
    have h1 : Inc C xb fxb (g.eval v) := hinc.keep fun hn => Fl.le_trans (hinc.le_fit hI hn) (Fl.le_of_not_lt (hn _ _ hv) (hn _ _ hI.1) hnl)
    have h2 : Inc C (getBest1 s.x s.f xb fxb).1 (getBest1 s.x s.f xb fxb).2 (g.eval v) := by
      unfold getBest1
      split
      · exact h1.replace (hI.eval v) fun _ => ‹_›
      · exact h1
    exact ⟨hI.eval v, h2.fit, h2.eq, Cost.ok_exact rfl⟩

end SA

namespace CRO

/-- `CoralReefsOptimization.asexual_reproduction` (cro.py:235-260) with an arbitrary function for brooding. -/
def asexualU (p : Par) (brood : List (Vec D) → Prog (Vec D) (List (Vec D))) (reef : List (Vec D × Fl)) (xb : Vec D) (fxb : Fl) :
    Prog (Vec D) (List (Vec D × Fl) × Vec D × Fl) := do
  let l ← sortRecs (·.2) reef
  let y ← brood ((l.take p.numAsexual).map (·.1))
  let new ← evalRecs y
  let b ← Prog.getBest (new.map (·.1)) (new.map (·.2)) xb fxb
  settling p reef new b.1 b.2

/-- `CoralReefsOptimization.run_iteration` (cro.py:318-367) with arbitrary functions for crossover and brooding. -/
def iterU (p : Par) (cross : {n : ℕ} → (Fin n → Vec D) → Prog (Vec D) (List (Vec D))) (brood : List (Vec D) → Prog (Vec D) (List (Vec D))) (s : St D) (xb : Vec D)
    (fxb : Fl) : Prog (Vec D) (St D × Vec D × Fl) :=
  if s.flat then .throw .indexError
  else do
    let c ← choiceFin s.reef.length p.numBroadcast
    let x ← cross fun i => (s.reef.get (c i)).1
    let cast ← evalRecs x
    let b ← Prog.getBest (cast.map (·.1)) (cast.map (·.2)) xb fxb
    let y ← brood (((List.finRange s.reef.length).filter fun j => ∀ i, c i ≠ j).map fun j => (s.reef.get j).1)
    let young ← evalRecs y
    let b ← Prog.getBest (young.map (·.1)) (young.map (·.2)) b.1 b.2
    let a ← settling p s.reef (cast ++ young) b.1 b.2
    let a ← asexualU p brood a.1 a.2.1 a.2.2
    let s ← finish p a.1
    return (s, a.2)

/-- Coral reefs optimization with arbitrary functions for crossover and brooding. -/
def algU (B : Box D) (N : ℕ) (p : Par) (cross : {n : ℕ} → (Fin n → Vec D) → Prog (Vec D) (List (Vec D))) (brood : List (Vec D) → Prog (Vec D) (List (Vec D))) :
    Alg (Vec D) where
  σ := St D
  init := do
    let (pop, fit) ← defaultNumpyInit B N
    return ⟨List.ofFn fun i => (pop i, fit i), false⟩
  pop s := if s.flat then [] else s.reef.map (·.1)
  fit s := s.reef.map (·.2)
  iter := iterU p cross brood

/-- The functions of the library are a special case. -/
theorem algU_eq (B : Box D) (N : ℕ) (p : Par) :
    algU B N p (fun pop => (crossover p.cr pop).bind fun r => .pure (List.ofFn r)) (fun l => mapM' l (CRO.brood B p.mr)) = alg B N p := by
  have h : iterU p (fun pop => (crossover p.cr pop).bind fun r => .pure (List.ofFn r)) (fun l => mapM' l (CRO.brood B p.mr)) = iter B p := by
    funext s xb fxb
    simp only [iterU, iter, asexualU, asexual, brooding, Prog.bind_def, Prog.bind_assoc']
    rfl
  unfold algU alg
  rw [h]

/-- The functions of the user evaluate nothing, and given points within the bounds they return points within the bounds, if the repair function does so. -/
structure Sound (B : Box D) (i : Bool) (cross : {n : ℕ} → (Fin n → Vec D) → Prog (Vec D) (List (Vec D))) (brood : List (Vec D) → Prog (Vec D) (List (Vec D))) : Prop where
  cross : ∀ C, Assumed B true i C → ∀ {n : ℕ} (pop : Fin n → Vec D), (∀ i, C.G (pop i)) → Yields C (cross pop) fun r => ∀ x ∈ r, C.G x
  brood : ∀ C, Assumed B true i C → ∀ l : List (Vec D), (∀ x ∈ l, C.G x) → Yields C (brood l) fun r => ∀ x ∈ r, C.G x

theorem verifiedU (B : Box D) (N : ℕ) (p : Par) {i : Bool} {cross : {n : ℕ} → (Fin n → Vec D) → Prog (Vec D) (List (Vec D))}
    {brood : List (Vec D) → Prog (Vec D) (List (Vec D))} (h : Sound B i cross brood) :
    VerifiedIf (Assumed B true i) (algU B N p cross brood) B.Mem true true ⟨N, 3, none⟩ False := by
  refine ⟨fun C (s : St D) b => s.flat = false → Alive C b s.reef, fun C hP hG _ _ => ⟨False.elim, fun g hg => ?_, ?_⟩⟩
  · simp only [algU, Prog.wp_bind']
    refine wp_initArr hG hg fun r g' _ h2 h3 h4 h5 => ⟨fun _ => fun e he => ?_, ?_, ?_, h5⟩
    · obtain ⟨i, rfl⟩ := (List.mem_ofFn ..).1 he
      exact ⟨h3 i, hG _ (h2 i)⟩
    · simpa [List.map_ofFn, Function.comp_def] using forall₂_ofFn h3
    · refine h4.mono fun u hu => ?_
      simpa [List.map_ofFn, Function.comp_def] using hu
  · intro s xb fxb g hI hF hc
    have hinc : Inc C xb fxb g := ⟨hF, hc⟩
    simp only [algU, iterU, asexualU]
    split
    · exact nofun
    · rename_i hfl
      have hA := hI (by simpa using hfl)
      simp only [Prog.wp_bind']
      refine Yields.choiceFin.wp fun c hc' => (h.cross C hP _ fun i => (hA _ (List.get_mem ..)).2).wp fun cast hcast => ?_
      refine wp_evalBest hcast hinc fun r1 b1 g1 n1 hb1 hr1 hi1 _ hc1 => ?_
      refine (h.brood C hP _ fun x hx => ?_).wp fun l hl => ?_
      · obtain ⟨j, -, rfl⟩ := List.mem_map.1 hx
        exact (hA _ (List.get_mem ..)).2
      refine wp_evalBest hl hi1 fun r2 b2 g2 n2 hb2 hr2 hi2 _ hc2 => ?_
      refine Prog.wp_mono ?_ (wp_settling ((hA.mono hb1).mono hb2) (fun e he => (List.mem_append.1 he).elim (hr1.mono hb2 e) (hr2 e)) hi2)
      rintro a g3 ⟨hb3, hc3, ha3, hi3, hl3⟩
      refine Yields.sortRecs.wp fun srt hs => (h.brood C hP _ fun x hx => ?_).wp fun l' hl' => ?_
      · obtain ⟨e, he, rfl⟩ := List.mem_map.1 hx
        exact (ha3 e (hs.1.mem_iff.1 (List.mem_of_mem_take he))).2
      refine wp_evalBest hl' hi3 fun r4 b4 g4 n4 hb4 hr4 hi4 _ hc4 => ?_
      refine Prog.wp_mono ?_ (wp_settling (ha3.mono hb4) hr4 hi4)
      rintro a5 g5 ⟨hb5, hc5, ha5, hi5, hl5⟩
      refine (finish_quiet a5.1).wp fun s' hs' => ⟨fun hf => ?_, hi5.fit, hi5.eq, ?_, nofun⟩
      · rw [hs' hf]
        exact ha5
      · change g.c + 3 ≤ g5.c
        omega

end CRO

/-! ## C109 -/

/-- The algorithms that take functions as parameters, with arbitrary functions of the user. The flags: is the outcome determined by the seed, are populations and
fitness values aligned, do they keep to the bounds. -/
inductive Supplied (opt : OptType) (B : Box D) : Alg (Vec D) → Bool → Bool → Bool → Cost → Prop
  | de (n strat f cr) (hs : DE.QuietStrategy strat) : Supplied opt B (DE.alg opt B n strat f cr) true true true (.exact n n)
  | deMulti (n strats f cr) (hs : ∀ s ∈ strats, DE.QuietStrategy s) :
      Supplied opt B (DE.algMulti opt B n strats f cr) true true true (.exact n (n * strats.length))
  | deDyn (n strat f cr pMax rp) (hs : DE.QuietStrategy strat) : Supplied opt B (DE.algDyn opt B n strat f cr pMax rp) true true true ⟨n, min n 2, some n⟩
  | deDynMulti (n strats f cr pMax rp) (hs : ∀ s ∈ strats, DE.QuietStrategy s) :
      Supplied opt B (DE.algDynMulti opt B n strats f cr pMax rp) true true true ⟨n, min n 2 * strats.length, some (n * strats.length)⟩
  | deAging (n strat f cr p) (age : DE.AgePar → DE.AgeArgs → Fl) (hs : DE.QuietStrategy strat) :
      Supplied opt B (DE.algAging opt B n strat f cr p age) true true true ⟨n, 1, none⟩
  | jde (n strat p) (hs : DE.QuietStrategy strat) : Supplied opt B (JDE.alg opt B n strat p) false true true (.exact n n)
  | jdeMulti (n strats f cr) (hs : ∀ s ∈ strats, DE.QuietStrategy s) :
      Supplied opt B (JDE.algMulti opt B n strats f cr) true true true (.exact n (n * strats.length))
  | hsaba (n p q strat f cr) (hs : DE.QuietStrategy strat) : Supplied opt B (BAT.algHS B n p q strat f cr) true true true (.exact n n)
  | hba (n p c f cr) (hs : DE.QuietStrategy (BAT.Callee.run c)) : Supplied opt B (BAT.algH B n p c f cr) true true true (.exact n n)
  | ga (n) (sel : GA.SelFn D n) (cross mutate : GA.VarFn D n) (h1 : ∀ C pop i x, Quiet C (sel pop i x)) (h2 : ∀ C pop i, Quiet C (cross pop i))
      (h3 : ∀ C pop i, Quiet C (mutate pop i)) : Supplied opt B (GA.algU opt B n sel cross mutate) true true true (.exact n n)
  | sa (t0 delta cooling i) (haff : i = true → AffineLaw B) (hsub : SubNeg) (h : ∀ C t, Quiet C (cooling t)) :
      Supplied opt B (SA.algU B t0 delta cooling) true true i (.exact 1 1)
  | cro (n p i) (cross : {n : ℕ} → (Fin n → Vec D) → Prog (Vec D) (List (Vec D))) (brood) (h : CRO.Sound B i cross brood) :
      Supplied opt B (CRO.algU B n p cross brood) true false i ⟨n, 3, none⟩
  | mts (n p i) (ls : List (MTS.SearchFn D)) (hp : p.best = 0) (h : ∀ f ∈ ls, MTS.Honest B i f) :
      Supplied opt B (MTS.algU B n p ls) true false i ⟨n, p.best * D, none⟩

variable {opt : OptType} {B : Box D} {A : Alg (Vec D)} {s a i : Bool} {K : Cost}

theorem Supplied.verified (h : Supplied opt B A s a i K) : VerifiedIf (Assumed B true i) A B.Mem s true K (a = true) := by
  cases h with
  | de n strat f cr hs => exact (Covered.de n strat f cr hs).verified
  | deMulti n strats f cr hs => exact (Covered.deMulti n strats f cr hs).verified
  | deDyn n strat f cr pMax rp hs => exact (Covered.deDyn n strat f cr pMax rp hs).verified
  | deDynMulti n strats f cr pMax rp hs => exact (Covered.deDynMulti n strats f cr pMax rp hs).verified
  | deAging n strat f cr p age hs => exact (Covered.deAging n strat f cr p age hs).verified
  | jde n strat p hs => exact (Covered.jde n strat p hs).verified
  | jdeMulti n strats f cr hs => exact (Covered.jdeMulti n strats f cr hs).verified
  | hsaba n p q strat f cr hs => exact (Covered.hsaba (opt := opt) n p q strat f cr hs).verified
  | hba n p c f cr hs => exact (Covered.hba (opt := opt) n p c f cr hs).verified
  | ga n sel cross mutate h1 h2 h3 => exact (GA.verifiedU opt B n h1 h2 h3).assumed nofun
  | sa t0 delta cooling i haff hsub h => exact (SA.verifiedU B hsub t0 delta h).assumedIf fun hi _ h => h.mem (haff hi)
  | cro n p i cross brood h => exact (CRO.verifiedU B n p h).imp (fun _ h => h) fun _ h => h
  | mts n p i ls hp h => exact (MTS.verifiedU B n p h).imp (fun _ h => ⟨h, .inl hp⟩) fun _ h => h

/-- C109: whatever the functions of the user do, nothing outside the bounds is evaluated (C25), if the repair function leads into the bounds. -/
theorem C109_feasible (hA : Supplied opt B A s a true K) (env : Env (Vec D)) (hR : ∀ rng k x, B.NotOut (env.repairFn rng k x))
    (main : Bool) (ncb fuel : ℕ) : ∀ c ∈ (A.exec env main ncb fuel).2.calls, B.NotOut c.1 :=
  C25_feasible hA.verified env B.NotOut (metBy_assumed_notOut _ _ _ (Or.inl rfl)) (fun _ h => h.notOut) hR main ncb fuel

/-- C109: the fitness returned is the best value the objective has returned (C26). -/
theorem C109_best (hA : Supplied opt B A s a i K) (env : Env (Vec D)) (hnn : NoNaN env) (main : Bool) (ncb fuel : ℕ) (out : RunOut (Vec D)) (x : Vec D) (f : Fl)
    (hrun : (A.exec env main ncb fuel).1 = .ok out) (hres : out.result = some (x, f)) :
    f = (A.exec env main ncb fuel).2.st.xf ∧ BestOf env.opt (values (A.exec env main ncb fuel).2.calls) f :=
  C26_returned_is_best hA.verified env (metBy_assumed _ _ _ _ (Or.inl rfl)) hnn main ncb fuel out x f hrun hres

/-- C109: the solution returned was evaluated and the fitness belongs to it (C27). -/
theorem C109_solution (hA : Supplied opt B A s a i K) (env : Env (Vec D)) (main : Bool) (ncb fuel : ℕ) (out : RunOut (Vec D)) (x : Vec D) (f : Fl)
    (hrun : (A.exec env main ncb fuel).1 = .ok out) (hres : out.result = some (x, f)) :
    (x, .ok f) ∈ (A.exec env main ncb fuel).2.calls ∨ f = env.opt.mul .pinf :=
  C27_solution_fitness hA.verified env (metBy_assumed _ _ _ _ (Or.inl rfl)) main ncb fuel out x f hrun hres

/-- C109: what callbacks are shown is aligned (C28), and the best fitness shown never gets worse (C29). -/
theorem C109_callbacks (hA : Supplied opt B A s a i K) (env : Env (Vec D)) (hnn : NoNaN env) (main : Bool) (ncb fuel : ℕ) :
    (∀ e ∈ (A.exec env main ncb fuel).2.events, EventAligned (FitOK env.opt (A.exec env main ncb fuel).2.calls) (a = true) e.2) ∧
    ((A.exec env main ncb fuel).2.events.Pairwise fun a b => ∀ u v, a.2.best = some u → b.2.best = some v → v ≤ u) :=
  have h := C28_callback_log hA.verified env True (metBy_assumed _ _ _ _ (Or.inl rfl)) main ncb fuel
  ⟨h.aligned, h.mono ⟨trivial, hnn⟩⟩

/-- C109: with `max_iters` or `max_evals` a run ends (C17). -/
theorem C109_terminates (hA : Supplied opt B A s a i K) (env : Env (Vec D)) (hE : NoFuelError env) (m : ℕ)
    (hm : env.maxIters = some m ∨ 0 < K.lo ∧ env.maxEvals = some m) (main : Bool) (ncb fuel : ℕ) (hfuel : m < fuel) :
    (A.exec env main ncb fuel).1 ≠ .error .outOfFuel := by
  rcases hm with hm | ⟨hlo, hm⟩
  · exact (C17_terminates hA.verified env (metBy_assumed _ _ _ _ (Or.inl rfl)) hE m hm main ncb fuel hfuel).1
  · exact C17_terminates_max_evals hA.verified hlo env (metBy_assumed _ _ _ _ (Or.inl rfl)) hE m hm main ncb fuel hfuel

/-- C109: the outcome is determined by the seed (C31), except for jDE. -/
theorem C109_seeded (hA : Supplied opt B A true a i K) (env : Env (Vec D)) (r : Rng) (main : Bool) (ncb fuel : ℕ) :
    A.exec (env.withEntropy r) main ncb fuel = A.exec env main ncb fuel :=
  C31_reproducible hA.verified env (metBy_assumed _ _ _ _ (Or.inl rfl)) r main ncb fuel

/-- C109 fails for coral reefs optimization if the crossover function returns a point outside the bounds: the point is evaluated as it is, although the repair
function puts everything it is given within the bounds. (Differential evolution, the genetic algorithm and the bat algorithms repair what their functions return.) -/
theorem C109_cro_unrepaired_false : letI := Ex.arith
    (∀ rng k x, (Ex.box 1).NotOut ((Ex.env2 (D := 1)).repairFn rng k x)) ∧
    ∃ c ∈ ((CRO.algU (Ex.box 1) 5 CRO.Ex.par (fun _ => .pure [fun _ => .fin 3]) (fun l => .pure l)).exec Ex.env2 true 0 5).2.calls, ¬ (Ex.box 1).NotOut c.1 := by
  letI := Ex.arith
  refine ⟨Ex.env2_repair, ?_⟩
  have h : (((CRO.algU (Ex.box 1) 5 CRO.Ex.par (fun _ => .pure [fun _ => .fin 3]) (fun l => .pure l)).exec Ex.env2 true 0 5).2.calls.any
    fun c => decide (Fl.fin 2 < c.1 0)) = true := by decide +kernel
  obtain ⟨c, hc, h⟩ := List.any_eq_true.1 h
  exact ⟨c, hc, fun hn => (hn 0).2 (of_decide_eq_true h)⟩

/-! ### Examples -/

/-- A genetic algorithm whose mutation always returns the point 5, outside the bounds: what is evaluated is the repaired point. -/
example : ∃ (K : Cost) (A : Alg (Vec 1)), (letI := Ex.arith; Supplied .minimization (Ex.box 1) A true true true K) ∧ A.okIters Ex.env2 1 5 = some 2 ∧
    values (A.exec Ex.env2 true 0 5).2.calls ≠ values ((@GA.alg Ex.arith 1 .minimization (Ex.box 1) 2 ⟨.tournament 2, .uniform (lit 1 4), .uniform (lit 1 4)⟩ 3).exec
      Ex.env2 true 0 5).2.calls := by
  letI := Ex.arith
  exact ⟨_, GA.algU .minimization (Ex.box 1) 2 (fun pop i _ => .pure (pop i).x) (fun pop i => .pure (pop i).x) (fun _ _ => .pure fun _ => .fin 5),
    .ga 2 _ _ _ (fun _ _ _ _ => .pure trivial) (fun _ _ _ => .pure trivial) (fun _ _ _ => .pure trivial), by decide +kernel, by decide +kernel⟩

/-- Coral reefs optimization with a crossover that returns the corals in the reverse order and a brooding that returns its corals as they are. -/
example : ∃ (K : Cost) (A : Alg (Vec 1)), (letI := Ex.arith; Supplied .minimization (Ex.box 1) A true false true K) ∧ A.okIters Ex.env2 1 5 = some 2 := by
  letI := Ex.arith
  exact ⟨_, CRO.algU (Ex.box 1) 5 CRO.Ex.par (fun pop => .pure (List.ofFn pop).reverse) (fun l => .pure l),
    .cro 5 _ true _ _ ⟨fun C _ n pop h => .pure fun x hx => by simp at hx; obtain ⟨i, rfl⟩ := hx; exact h i, fun C _ l h => .pure h⟩, by decide +kernel⟩

/-- Multiple trajectory search with a search of the user. -/
example : ∃ (K : Cost) (A : Alg (Vec 1)), (letI := Ex.arith; Supplied .minimization (Ex.box 1) A true false true K) ∧ A.okIters Ex.env2 1 5 = some 2 := by
  letI := Ex.arith
  exact ⟨_, MTS.algU (Ex.box 1) 2 ⟨1, 1, 0, 1, .fin 10, .fin 1, []⟩ [MTS.Ex.mine],
    .mts 2 _ true _ rfl fun f hf => by rw [List.mem_singleton.1 hf]; exact MTS.Ex.mine_honest, by decide +kernel⟩

end NiaPy
