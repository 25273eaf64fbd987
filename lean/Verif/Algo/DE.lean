import Verif.Steps

/-!
# Differential evolution and its variants (`niapy/algorithms/basic/de.py`)

The population is a list because some variants change its size. Individuals carry an extra field `ext` (the age of
`AgingIndividual`, nothing otherwise).
-/

namespace NiaPy.DE
open NiaPy
variable [Arith] {D : ℕ} {E : Type}

/-- `Individual` (algorithm.py:335-353) with the extra attributes of a subclass. -/
structure Ind (D : ℕ) (E : Type) where
  x : Vec D
  f : Fl
  ext : E

/-- `individual_type(x=x, task=task, rng=self.rng, e=True)` -/
def newInd (opt : OptType) (ext : E) (x : Vec D) : Prog (Vec D) (Ind D E) := do
  let i ← Indiv.new opt x
  return ⟨i.x, i.f, ext⟩

/-- `individual_type(task=task, rng=self.rng, e=True)` -/
def randInd (opt : OptType) (B : Box D) (ext : E) : Prog (Vec D) (Ind D E) := do
  let i ← Indiv.random opt B
  return ⟨i.x, i.f, ext⟩

/-! ### Strategies -/

/-- The parents: `k` indices; if there are more than `k` individuals they are different and none is `ic`, if there are
exactly `k` they are different, otherwise they are drawn with replacement (de.py:47-49 and the same in each strategy). -/
def parents (n k : ℕ) (ic : Fin n) : Prog (Vec D) (Fin k → Fin n) :=
  if k < n then choiceOther n k ic
  else if k ≤ n then choiceFin n k
  else choiceRep n k

/-- Binomial crossover: each coordinate comes from the mutant with probability `cr`, coordinate `j` always (de.py:50-51). -/
def binomial (cr : Fl) (j : Fin D) (old mutant : Vec D) : Prog (Vec D) (Vec D) := tabM D fun i => do
  let r ← Prog.rand
  return if r < cr ∨ i = j then mutant i else old i

/-- A strategy draws `j` and `k` parents and mixes the mutant computed from them with individual `ic`. -/
def strategy (k : ℕ) (mutant : {n : ℕ} → (Fin n → Vec D) → Fin n → (Fin k → Fin n) → Fl → Vec D → Vec D) {n : ℕ}
    (pop : Fin n → Vec D) (ic : Fin n) (f cr : Fl) (xb : Vec D) : Prog (Vec D) (Vec D) := do
  let j ← intFin D
  let r ← parents n k ic
  binomial cr j (pop ic) (mutant pop ic r f xb)

/-- The type of a strategy. -/
abbrev Strategy (D : ℕ) := {n : ℕ} → (Fin n → Vec D) → Fin n → Fl → Fl → Vec D → Prog (Vec D) (Vec D)

/-- `cross_rand1` (de.py:20-52) -/
def crossRand1 : Strategy D := strategy 3 fun pop _ r f _ i => pop (r 0) i + f * (pop (r 1) i - pop (r 2) i)
/-- `cross_best1` (de.py:55-88) -/
def crossBest1 : Strategy D := strategy 2 fun pop _ r f xb i => xb i + f * (pop (r 0) i - pop (r 1) i)
/-- `cross_rand2` (de.py:91-124) -/
def crossRand2 : Strategy D := strategy 5 fun pop _ r f _ i =>
  pop (r 0) i + f * (pop (r 1) i - pop (r 2) i) + f * (pop (r 3) i - pop (r 4) i)
/-- `cross_best2` (de.py:127-159) -/
def crossBest2 : Strategy D := strategy 4 fun pop _ r f xb i =>
  xb i + f * (pop (r 0) i - pop (r 1) i) + f * (pop (r 2) i - pop (r 3) i)
/-- `cross_curr2rand1` (de.py:162-193) -/
def crossCurr2Rand1 : Strategy D := strategy 4 fun pop ic r f _ i =>
  pop ic i + f * (pop (r 0) i - pop (r 1) i) + f * (pop (r 2) i - pop (r 3) i)
/-- `cross_curr2best1` (de.py:196-228) -/
def crossCurr2Best1 : Strategy D := strategy 3 fun pop ic r f xb i =>
  pop ic i + f * (xb i - pop (r 0) i) + f * (pop (r 1) i - pop (r 2) i)

/-! ### The algorithm -/

/-- How new individuals are made, for each index of the population. -/
abbrev Evolve (D : ℕ) (E : Type) := (l : List (Ind D E)) → Vec D → Prog (Vec D) (Fin l.length → Ind D E)

/-- The coordinates of individual `i`. -/
def pts (l : List (Ind D E)) (i : Fin l.length) : Vec D := (l.get i).x

/-- `evolve` (de.py:337-351). -/
def evolve (opt : OptType) (ext : E) (strat : Strategy D) (f cr : Fl) : Evolve D E := fun l xb => tabM l.length fun i => do
  let x ← strat (pts l) i f cr xb
  newInd opt ext x

/-- `evolve` of the variants with several strategies (de.py:839-859, 943-957): the best of the individuals made by the
strategies; raises `ValueError` without strategies. -/
def evolveMulti (opt : OptType) (ext : E) (strats : List (Strategy D)) (f cr : Fl) : Evolve D E := fun l xb => tabM l.length fun i => do
  let c ← mapM' strats fun strat => do
    let x ← strat (pts l) i f cr xb
    newInd opt ext x
  argminRec (·.f) c

/-- The individuals selected (de.py:370): the new one if it is better than the old one at its position. -/
def survivors (l : List (Ind D E)) (new : Fin l.length → Ind D E) : List (Ind D E) :=
  List.ofFn fun i => if (new i).f < (l.get i).f then new i else l.get i

/-- `get_best(l, [x.f for x in l], xb, fxb)` -/
def best (l : List (Ind D E)) (xb : Vec D) (fxb : Fl) : Prog (Vec D) (Vec D × Fl) :=
  Prog.getBest (l.map (·.x)) (l.map (·.f)) xb fxb

/-- `selection` (de.py:353-372). -/
def select (l : List (Ind D E)) (new : Fin l.length → Ind D E) (xb : Vec D) (fxb : Fl) :
    Prog (Vec D) (List (Ind D E) × Vec D × Fl) := do
  let arr := survivors l new
  let (xb, fxb) ← best arr xb fxb
  return (arr, xb, fxb)

/-- `run_iteration` (de.py:392-422), given `evolve`, `selection` and `post_selection`. -/
def iter (ev : Evolve D E)
    (sel : (l : List (Ind D E)) → (Fin l.length → Ind D E) → Vec D → Fl → Prog (Vec D) (List (Ind D E) × Vec D × Fl))
    (post : List (Ind D E) → Prog (Vec D) (List (Ind D E))) (l : List (Ind D E)) (xb : Vec D) (fxb : Fl) :
    Prog (Vec D) (List (Ind D E) × Vec D × Fl) := do
  let new ← ev l xb
  let (l, xb, fxb) ← sel l new xb fxb
  let l ← post l
  let (xb, fxb) ← best l xb fxb
  return (l, xb, fxb)

/-- `init_population` with `default_individual_init` (de.py:280-283, algorithm.py:43-59, 246-264). -/
def init (opt : OptType) (B : Box D) (N : ℕ) (ext : E) : Prog (Vec D) (List (Ind D E)) := do
  let p ← tabM N fun _ => randInd opt B ext
  return List.ofFn p

/-- An algorithm of the family. -/
def mk (opt : OptType) (B : Box D) (N : ℕ) (ext : E)
    (it : List (Ind D E) → Vec D → Fl → Prog (Vec D) (List (Ind D E) × Vec D × Fl)) : Alg (Vec D) where
  σ := List (Ind D E)
  init := init opt B N ext
  pop l := l.map (·.x)
  fit l := l.map (·.f)
  iter := it

/-- `DifferentialEvolution` (de.py:231-422). -/
def alg (opt : OptType) (B : Box D) (N : ℕ) (strat : Strategy D) (f cr : Fl) : Alg (Vec D) :=
  mk opt B N () (iter (evolve opt () strat f cr) select pure)

/-- `MultiStrategyDifferentialEvolution` (de.py:862-957). -/
def algMulti (opt : OptType) (B : Box D) (N : ℕ) (strats : List (Strategy D)) (f cr : Fl) : Alg (Vec D) :=
  mk opt B N () (iter (evolveMulti opt () strats f cr) select pure)

/-! ### Reducing the population -/

/-- The reduction of `DynNpDifferentialEvolution.post_selection` (de.py:530-531): the better one of individuals `i` and
`i + n // 2`, for `i < n // 2`. With an odd number of individuals the last one is dropped. -/
def halve (l : List (Ind D E)) : List (Ind D E) :=
  List.ofFn fun i : Fin (l.length / 2) =>
    let a := l.get ⟨i, by omega⟩
    let b := l.get ⟨i + l.length / 2, by omega⟩
    if a.f < b.f then a else b

/-- `post_selection` (de.py:509-532). Without a limit on evaluations `task.max_evals // k` is NaN, so nothing happens. -/
def reduce (pMax rp : ℕ) (l : List (Ind D E)) : Prog (Vec D) (List (Ind D E)) := do
  let v ← Prog.look
  if pMax * l.length = 0 then .throw .zeroDivisionError
  else if v.maxEvals.map (fun m => m / (pMax * l.length) + rp) = some (v.iters + 1) ∧ 3 < l.length then return halve l
  else return l

/-- `DynNpDifferentialEvolution` (de.py:425-532). -/
def algDyn (opt : OptType) (B : Box D) (N : ℕ) (strat : Strategy D) (f cr : Fl) (pMax rp : ℕ) : Alg (Vec D) :=
  mk opt B N () (iter (evolve opt () strat f cr) select (reduce pMax rp))

/-- `DynNpMultiStrategyDifferentialEvolution` (de.py:960-1054). -/
def algDynMulti (opt : OptType) (B : Box D) (N : ℕ) (strats : List (Strategy D)) (f cr : Fl) (pMax rp : ℕ) : Alg (Vec D) :=
  mk opt B N () (iter (evolveMulti opt () strats f cr) select (reduce pMax rp))

/-! ### Aging -/

/-- What a function for the lifetime is given: fitness, average, worst and best fitness. -/
structure AgeArgs where
  f : Fl
  avg : Fl
  worst : Fl
  best : Fl

/-- Parameters of `AgingNpDifferentialEvolution`. -/
structure AgePar where
  minLife : Fl
  maxLife : Fl
  deltaNp : Fl
  omega : Fl

/-- `mu` (de.py:677, 699) -/
def AgePar.mu (p : AgePar) : Fl := Fl.abs (p.maxLife - p.minLife) / Fl.ofNat 2

/-- Python's `min(a, b)` -/
def pyMin (a b : Fl) : Fl := if b < a then b else a

/-- `proportional` (de.py:535-550) -/
def proportional (p : AgePar) (a : AgeArgs) : Fl :=
  pyMin (if a.avg = .pinf ∨ a.avg = .ninf then p.maxLife else p.minLife + p.mu * a.avg / a.f) p.maxLife

/-- `linear` (de.py:553-567) -/
def linear (p : AgePar) (a : AgeArgs) : Fl := p.minLife + Fl.ofNat 2 * p.mu * (a.f - a.worst) / (a.best - a.worst)

/-- `bilinear` (de.py:570-588) -/
def bilinear (p : AgePar) (a : AgeArgs) : Fl :=
  if a.avg < a.f then p.minLife + p.mu * (a.f - a.worst) / (a.best - a.worst)
  else lit 1 2 * (p.minLife + p.maxLife) + p.mu * (a.f - a.avg) / (a.best - a.avg)

/-- `round(v)` (to an integer): raises `ValueError` for NaN and `OverflowError` for an infinite value. -/
def pyRound (v : Fl) : Except PyErr Fl :=
  match v with
  | .nan => .error .valueError
  | .pinf => .error .overflowError
  | .ninf => .error .overflowError
  | v => .ok (Arith.fn .round v)

/-- `np.mean(fpop[np.isfinite(fpop)])` (NaN for an empty selection) -/
def meanFinite (l : List Fl) : Fl :=
  let fin := l.filter fun v => match v with | .fin _ => true | _ => false
  if fin.isEmpty then .nan else fin.foldl (· + ·) 0 / Fl.ofNat fin.length

/-- `np.argmax` as a value (NaN wins, as with `argmin`). -/
def maxVal (l : List Fl) : Fl := l.foldl (fun m v => if m = .nan then m else if v = .nan then v else if m < v then v else m) .ninf

/-- the loop of `aging` (de.py:751-756): who survives, with his age increased -/
def older (age : AgeArgs → Fl) (avg worst bestF : Fl) : List (Ind D ℕ) → Except PyErr (List (Ind D ℕ))
  | [] => .ok []
  | e :: l => do
    let life ← pyRound (age ⟨e.f, avg, worst, bestF⟩)
    let rest ← older age avg worst bestF l
    return if Fl.ofNat (e.ext + 1) ≤ life then { e with ext := e.ext + 1 } :: rest else rest

/-- `aging` (de.py:736-759): if all individuals have died, a new population is made. -/
def aging (opt : OptType) (B : Box D) (N : ℕ) (age : AgeArgs → Fl) (l : List (Ind D ℕ)) : Prog (Vec D) (List (Ind D ℕ)) := do
  let b ← argminRec (·.f) l
  let l' ← Prog.ofExcept (older age (meanFinite (l.map (·.f))) (maxVal (l.map (·.f))) b.f l)
  if l'.isEmpty then mapM' (List.range N) fun _ => randInd opt B 0 else return l'

/-- `int(round(max(1, population_size * int(delta_np * abs(trig(t))))))` (de.py:722, 734, 771, 785) -/
def deltaPop (N : ℕ) (delta trig : Fl) : ℕ := max 1 (N * floorNat (delta * Fl.abs trig))

/-- `increment_population` (de.py:761-772): as many new individuals as `delta_pop_eliminated` says. -/
def increment (opt : OptType) (B : Box D) (N : ℕ) (p : AgePar) : Prog (Vec D) (List (Ind D ℕ)) := do
  let v ← Prog.look
  mapM' (List.range (deltaPop N p.deltaNp (Arith.fn .sin (Fl.ofNat (v.iters + 1))))) fun _ => randInd opt B 0

/-- `selection` with aging (de.py:797-818). -/
def selectAging (opt : OptType) (B : Box D) (N : ℕ) (p : AgePar) (age : AgeArgs → Fl) (l : List (Ind D ℕ))
    (new : Fin l.length → Ind D ℕ) (xb : Vec D) (fxb : Fl) : Prog (Vec D) (List (Ind D ℕ) × Vec D × Fl) := do
  let (arr, xb, fxb) ← select l new xb fxb
  let born ← increment opt B N p
  let arr := arr ++ born
  let (xb, fxb) ← best arr xb fxb
  let l ← aging opt B N age arr
  return (l, xb, fxb)

/-- `decrement_population` (de.py:774-795): of the individuals drawn, each stays with probability `1 - omega`. -/
def decrement (N : ℕ) (p : AgePar) (l : List (Ind D ℕ)) : Prog (Vec D) (List (Ind D ℕ)) := do
  let v ← Prog.look
  let d := deltaPop N p.deltaNp (Arith.fn .cos (Fl.ofNat (v.iters + 1)))
  if l.length ≤ d then return l
  else do
    let ni ← choiceFin l.length d
    let keep ← mapM' (List.finRange l.length) fun i =>
      if ∃ k, ni k = i then do
        let r ← Prog.rand
        return if p.omega ≤ r then some (l.get i) else none
      else return some (l.get i)
    return keep.filterMap id

/-- `post_selection` with aging (de.py:820-836). -/
def postAging (N : ℕ) (p : AgePar) (l : List (Ind D ℕ)) : Prog (Vec D) (List (Ind D ℕ)) :=
  if N < l.length then decrement N p l else pure l

/-- `AgingNpDifferentialEvolution` (de.py:613-836). -/
def algAging (opt : OptType) (B : Box D) (N : ℕ) (strat : Strategy D) (f cr : Fl) (p : AgePar) (age : AgePar → AgeArgs → Fl) :
    Alg (Vec D) :=
  mk opt B N 0 (iter (evolve opt 0 strat f cr) (selectAging opt B N p (age p)) (postAging N p))

/-! ### Proofs -/

variable {C : Ctx (Vec D)} {g : Ghost (Vec D)}

theorem Yields.parents {n k : ℕ} {ic : Fin n} : Yields C (parents n k ic : Prog (Vec D) (Fin k → Fin n)) fun r =>
    (k ≤ n → Function.Injective r) ∧ (k < n → ∀ i, r i ≠ ic) := by
  unfold DE.parents
  split
  · exact Yields.choiceOther.mono fun r h => ⟨fun _ => h.1, fun _ => h.2⟩
  · split
    · exact Yields.choiceFin.mono fun r h => ⟨fun _ => h, by omega⟩
    · exact Yields.choiceRep.mono fun r h => ⟨by omega, by omega⟩

/-- A strategy that evaluates nothing (all of them). -/
def QuietStrategy (strat : Strategy D) : Prop :=
  ∀ (C : Ctx (Vec D)) {n : ℕ} (pop : Fin n → Vec D) ic f cr xb, Quiet C (strat pop ic f cr xb)

theorem quiet_strategy (k : ℕ) (m : {n : ℕ} → (Fin n → Vec D) → Fin n → (Fin k → Fin n) → Fl → Vec D → Vec D) :
    QuietStrategy (strategy k m) := fun C n pop ic f cr xb => by
  unfold strategy binomial
  refine .bindT Yields.intFin fun j => .bindT Yields.parents.quiet fun r => ?_
  yields

theorem wp_newInd {opt : OptType} {e : E} {x : Vec D} {Q : Ind D E → Ghost (Vec D) → Prop}
    (h : ∀ y v, C.G y → C.F y v → Q ⟨y, v, e⟩ (g.eval v)) : (newInd opt e x).wp C Q g := by
  simp only [newInd, Indiv.new, Prog.wp_bind']
  exact wp_evaluate h

theorem wp_randInd {opt : OptType} {B : Box D} {e : E} {Q : Ind D E → Ghost (Vec D) → Prop}
    (h : ∀ y v, C.G y → C.F y v → Q ⟨y, v, e⟩ (g.eval v)) : (randInd opt B e).wp C Q g := by
  simp only [randInd, Prog.wp_bind']
  exact wp_indivRandom h

/-- What an `evolve` has to do: `m` evaluations per individual, the returned individuals cover them. `s` says whether the
generator is passed to `task.repair`. -/
def EvolveOK (ev : Evolve D E) (m : ℕ) (s : Bool := true) : Prop :=
  ∀ (C : Ctx (Vec D)), (s = true ∨ C.ent) → ∀ (g : Ghost (Vec D)) (S : Fl → Prop) (l : List (Ind D E)) (xb : Vec D), Cov C S g →
    (ev l xb).wp C (fun new g' => Cov C (fun u => S u ∨ ∃ i, u = (new i).f) g' ∧ (∀ i, C.Fit g'.b (new i).x (new i).f) ∧
      g'.c = g.c + l.length * m) g

theorem evolveOK (opt : OptType) (e : E) {strat : Strategy D} (hs : QuietStrategy strat) (f cr : Fl) :
    EvolveOK (evolve opt e strat f cr) 1 := fun C _ g S l xb h0 => by
  refine Prog.wp_mono (fun r g' h => ⟨h.1, h.2.1, h.2.2.2⟩) (wp_tabM_cov (fun _ a => a.x) (fun _ a => a.f) (fun _ _ => True) 1 h0
    fun i g S hS => ?_)
  simp only [Prog.wp_bind']
  exact (hs C _ _ _ _ _).wp fun x _ => wp_newInd fun y v _ hv => ⟨(hS.eval v).mono fun u hu => hu.symm, .new hv, trivial, rfl⟩

theorem evolveMultiOK (opt : OptType) (e : E) {strats : List (Strategy D)} (hs : ∀ s ∈ strats, QuietStrategy s) (f cr : Fl) :
    EvolveOK (evolveMulti opt e strats f cr) strats.length := fun C _ g S l xb h0 => by
  refine Prog.wp_mono (fun r g' h => ⟨h.1, h.2.1, h.2.2.2⟩) (wp_tabM_cov (fun _ a => a.x) (fun _ a => a.f) (fun _ _ => True)
    strats.length h0 fun i g S hS => ?_)
  simp only [Prog.wp_bind']
  refine Prog.wp_mono (fun c g' h => ?_) (wp_mapM_cov (fun a : Ind D E => a.x) (fun a => a.f) (fun _ => True) 1 hS fun st hst g S hS => ?_)
  · obtain ⟨h1, h2, -, -, h5⟩ := h
    refine wp_argminRec fun a ha hmin => ⟨h1.weaken fun hn u hu hne => ?_, h2 a ha, trivial, by simpa using h5⟩
    rcases hu with hu | ⟨e, he, rfl⟩
    · exact ⟨u, Or.inl hu, Fl.le_refl hne⟩
    · exact ⟨_, Or.inr rfl, hmin (fun e he => hn _ _ (h2 e he).1) e he⟩
  · simp only [Prog.wp_bind']
    exact (hs st hst C _ _ _ _ _).wp fun x _ => wp_newInd fun y v _ hv => ⟨(hS.eval v).mono fun u hu => hu.symm, .new hv, trivial, rfl⟩

/-- The population is correctly evaluated. -/
def PopOK (C : Ctx (Vec D)) (l : List (Ind D E)) (b : Fl) : Prop := ∀ e ∈ l, C.Fit b e.x e.f

theorem PopOK.mono {l : List (Ind D E)} {b b' : Fl} (h : PopOK C l b) (hb : Below b' b) : PopOK C l b' := fun e he => (h e he).mono hb

theorem wp_best {l : List (Ind D E)} {xb : Vec D} {fxb : Fl} {Q : Vec D × Fl → Ghost (Vec D) → Prop} (hl : PopOK C l g.b)
    (hx : C.Fit g.b xb fxb) (hc : Cov C (fun u => u = fxb ∨ ∃ e ∈ l, u = e.f) g) (hQ : ∀ r : Vec D × Fl, Inc C r.1 r.2 g → Q r g) :
    (best l xb fxb).wp C Q g := wp_getBest_recs hl hx hc hQ

theorem wp_select' {l : List (Ind D E)} {new : Fin l.length → Ind D E} {xb : Vec D} {fxb : Fl}
    {Q : List (Ind D E) × Vec D × Fl → Ghost (Vec D) → Prop} (hl : PopOK C l g.b) (hnew : ∀ i, C.Fit g.b (new i).x (new i).f)
    (hx : C.Fit g.b xb fxb) (hc : Cov C (fun u => u = fxb ∨ ∃ i, u = (new i).f) g)
    (hQ : ∀ r : Vec D × Fl, PopOK C (survivors l new) g.b → Inc C r.1 r.2 g → Q (survivors l new, r.1, r.2) g) :
    (select l new xb fxb).wp C Q g := by
  have hpop : PopOK C (survivors l new) g.b := fun e he => by
    obtain ⟨i, rfl⟩ := List.mem_ofFn.1 he
    split
    · exact hnew i
    · exact hl _ (List.get_mem _ _)
  simp only [select, Prog.wp_bind']
  refine wp_best hpop hx ?_ fun r hi => hQ r hpop hi
  refine (hc.greedy (fit := fun i => (l.get i).f) (out := fun i => ((fun i => if (new i).f < (l.get i).f then new i else l.get i) i).f)
    (fun i => ?_) fun hn i => ⟨hn _ _ (hnew i).1, hn _ _ (hl _ (List.get_mem _ _)).1⟩).mono fun u hu => hu.imp_right fun ⟨i, hi⟩ => ?_
  · dsimp only
    split
    · exact Or.inl rfl
    · exact Or.inr ⟨rfl, ‹_›⟩
  · exact ⟨_, List.mem_ofFn.2 ⟨i, rfl⟩, hi⟩

theorem wp_select {l : List (Ind D E)} {new : Fin l.length → Ind D E} {xb : Vec D} {fxb : Fl}
    {Q : List (Ind D E) × Vec D × Fl → Ghost (Vec D) → Prop} (hl : PopOK C l g.b) (hnew : ∀ i, C.Fit g.b (new i).x (new i).f)
    (hx : C.Fit g.b xb fxb) (hc : Cov C (fun u => u = fxb ∨ ∃ i, u = (new i).f) g)
    (hQ : ∀ (arr : List (Ind D E)) (r : Vec D × Fl), PopOK C arr g.b → arr.length = l.length → Inc C r.1 r.2 g → Q (arr, r.1, r.2) g) :
    (select l new xb fxb).wp C Q g :=
  wp_select' hl hnew hx hc fun r hp hi => hQ _ r hp (by simp [survivors]) hi

theorem wp_init {opt : OptType} {B : Box D} {N : ℕ} {e : E} (hg : g.b = .pinf) {Q : List (Ind D E) → Ghost (Vec D) → Prop}
    (hQ : ∀ l g', PopOK C l g'.b → l.length = N → Cov C (· ∈ l.map (·.f)) g' → g'.c = g.c + N → Q l g') : (init opt B N e).wp C Q g := by
  simp only [init, Prog.wp_bind']
  refine Prog.wp_mono (fun r g' h => ?_) (wp_tabM_cov (fun _ a => a.x) (fun _ a => a.f) (fun _ _ => True) 1 (Cov.pinf hg fun _ => False)
    fun i g S hS => wp_randInd fun y v _ hv => ⟨(hS.eval v).mono fun u hu => hu.symm, .new hv, trivial, rfl⟩)
  refine hQ _ g' (fun e he => ?_) (by simp) (h.1.mono fun u hu => ?_) (by simpa using h.2.2.2)
  · obtain ⟨i, rfl⟩ := List.mem_ofFn.1 he
    exact h.2.1 i
  · obtain ⟨i, rfl⟩ := hu.resolve_left id
    exact List.mem_map.2 ⟨_, List.mem_ofFn.2 ⟨i, rfl⟩, rfl⟩

/-- The iteration with the plain selection and a `post_selection` that only drops individuals. -/
theorem wp_iter {ev : Evolve D E} {m : ℕ} {s : Bool} (hev : EvolveOK ev m s) (hent : s = true ∨ C.ent) {post : List (Ind D E) → Prog (Vec D) (List (Ind D E))}
    {R : ℕ → ℕ → Prop} (hpost : ∀ l, Yields C (post l) fun l' => (∀ e ∈ l', e ∈ l) ∧ R l.length l'.length)
    {l : List (Ind D E)} {xb : Vec D} {fxb : Fl} (hl : PopOK C l g.b) (hinc : Inc C xb fxb g) :
    (iter ev select post l xb fxb).wp C (fun r g' => PopOK C r.1 g'.b ∧ R l.length r.1.length ∧ Inc C r.2.1 r.2.2 g' ∧
      g'.c = g.c + l.length * m) g := by
  simp only [iter, Prog.wp_bind']
  refine Prog.wp_mono (fun new g1 h1 => ?_) (Prog.wp_below (hev C hent g _ l xb hinc.cov))
  obtain ⟨⟨hc1, hf1, hn1⟩, hb1⟩ := h1
  refine wp_select (hl.mono hb1) hf1 (hinc.toFit.mono hb1) hc1 fun arr r hp hlen hi => ?_
  refine (hpost arr).wp fun l' hl' => ?_
  have hp' : PopOK C l' g1.b := fun e he => hp e (hl'.1 e he)
  exact wp_best hp' hi.toFit (hi.cov.mono fun u hu => Or.inl hu) fun r hi => ⟨hp', hlen ▸ hl'.2, hi, hn1⟩

omit [Arith] in
theorem halve_mem {l : List (Ind D E)} {e : Ind D E} (h : e ∈ halve l) : e ∈ l := by
  obtain ⟨i, rfl⟩ := List.mem_ofFn.1 h
  dsimp only
  split
  · exact List.get_mem _ _
  · exact List.get_mem _ _

theorem Yields.reduce {pMax rp : ℕ} {l : List (Ind D E)} : Yields C (reduce pMax rp l) fun l' =>
    (∀ e ∈ l', e ∈ l) ∧ l'.length ≤ l.length ∧ (2 ≤ l.length → 2 ≤ l'.length) := by
  unfold DE.reduce
  refine .bindT Yields.look fun v => .ite (fun _ => .throw nofun) fun _ => .ite (fun h => .pure' ?_) fun _ => .pure' ⟨fun _ h => h, le_rfl, id⟩
  refine ⟨fun e he => halve_mem he, ?_, fun _ => ?_⟩ <;> simp only [halve, List.length_ofFn] <;> omega

theorem verified (opt : OptType) (B : Box D) (N : ℕ) {strat : Strategy D} (hs : QuietStrategy strat) (f cr : Fl) :
    Verified (alg opt B N strat f cr) (fun _ => False) true true (.exact N N) := by
  refine ⟨fun C (l : List (Ind D Unit)) b => PopOK C l b ∧ l.length = N, fun C _ hent _ => ⟨fun s b h => forall₂_map h.1, fun g hg => ?_, ?_⟩⟩
  · exact wp_init hg fun l g' h1 h2 h3 h4 => ⟨⟨h1, h2⟩, h3, h4⟩
  · intro s xb fxb g hI hF hc
    refine Prog.wp_mono (fun r g' h => ?_) (wp_iter (evolveOK opt () hs f cr) (Or.inl rfl) (R := fun n m => m = n)
      (fun l => .pure' ⟨fun _ h => h, rfl⟩) hI.1 ⟨hF, hc⟩)
    obtain ⟨h1, h2, h3, h4⟩ := h
    refine ⟨⟨h1, h2.trans hI.2⟩, h3.fit, h3.eq, Cost.ok_exact ?_⟩
    rw [hI.2] at h4; omega

theorem verifiedMulti (opt : OptType) (B : Box D) (N : ℕ) {strats : List (Strategy D)} (hs : ∀ s ∈ strats, QuietStrategy s) (f cr : Fl) :
    Verified (algMulti opt B N strats f cr) (fun _ => False) true true (.exact N (N * strats.length)) := by
  refine ⟨fun C (l : List (Ind D Unit)) b => PopOK C l b ∧ l.length = N, fun C _ hent _ => ⟨fun s b h => forall₂_map h.1, fun g hg => ?_, ?_⟩⟩
  · exact wp_init hg fun l g' h1 h2 h3 h4 => ⟨⟨h1, h2⟩, h3, h4⟩
  · intro s xb fxb g hI hF hc
    refine Prog.wp_mono (fun r g' h => ?_) (wp_iter (evolveMultiOK opt () hs f cr) (Or.inl rfl) (R := fun n m => m = n)
      (fun l => .pure' ⟨fun _ h => h, rfl⟩) hI.1 ⟨hF, hc⟩)
    obtain ⟨h1, h2, h3, h4⟩ := h
    refine ⟨⟨h1, h2.trans hI.2⟩, h3.fit, h3.eq, Cost.ok_exact ?_⟩
    rw [hI.2] at h4; omega

theorem verifiedDyn' (opt : OptType) (B : Box D) (N : ℕ) {ev : Evolve D Unit} {m : ℕ} (hev : EvolveOK ev m) (pMax rp : ℕ) :
    Verified (mk opt B N () (iter ev select (reduce pMax rp))) (fun _ => False) true true ⟨N, min N 2 * m, some (N * m)⟩ := by
  refine ⟨fun C (l : List (Ind D Unit)) b => PopOK C l b ∧ l.length ≤ N ∧ min N 2 ≤ l.length,
    fun C _ hent _ => ⟨fun s b h => forall₂_map h.1, fun g hg => ?_, ?_⟩⟩
  · exact wp_init hg fun l g' h1 h2 h3 h4 => ⟨⟨h1, by omega, by omega⟩, h3, h4⟩
  · intro s xb fxb g hI hF hc
    refine Prog.wp_mono (fun r g' h => ?_) (wp_iter hev (Or.inl rfl) (R := fun n m => m ≤ n ∧ (2 ≤ n → 2 ≤ m) ∧ (n < 2 → m = n))
      (fun l => ?_) hI.1 ⟨hF, hc⟩)
    · obtain ⟨h1, h2, h3, h4⟩ := h
      refine ⟨⟨h1, by omega, by omega⟩, h3.fit, h3.eq, ?_⟩
      have e1 : min N 2 * m ≤ List.length s * m := Nat.mul_le_mul_right _ hI.2.2
      have e2 : List.length s * m ≤ N * m := Nat.mul_le_mul_right _ hI.2.1
      refine ⟨by rw [h4]; exact Nat.add_le_add_left e1 _, fun h hh => ?_⟩
      cases hh
      rw [h4]; exact Nat.add_le_add_left e2 _
    · unfold DE.reduce
      refine .bindT Yields.look fun v => .ite (fun _ => .throw nofun) fun _ => .ite (fun h => .pure' ?_)
        fun _ => .pure' ⟨fun _ h => h, le_rfl, id, fun _ => rfl⟩
      refine ⟨fun e he => halve_mem he, ?_⟩; simp only [halve, List.length_ofFn]; omega

theorem verifiedDyn (opt : OptType) (B : Box D) (N : ℕ) {strat : Strategy D} (hs : QuietStrategy strat) (f cr : Fl) (pMax rp : ℕ) :
    Verified (algDyn opt B N strat f cr pMax rp) (fun _ => False) true true ⟨N, min N 2, some N⟩ := by
  simpa [algDyn] using verifiedDyn' opt B N (evolveOK opt () hs f cr) pMax rp

theorem verifiedDynMulti (opt : OptType) (B : Box D) (N : ℕ) {strats : List (Strategy D)} (hs : ∀ s ∈ strats, QuietStrategy s) (f cr : Fl)
    (pMax rp : ℕ) : Verified (algDynMulti opt B N strats f cr pMax rp) (fun _ => False) true true
      ⟨N, min N 2 * strats.length, some (N * strats.length)⟩ :=
  verifiedDyn' opt B N (evolveMultiOK opt () hs f cr) pMax rp

/-! Aging -/

theorem older_fit {age : AgeArgs → Fl} {a w b : Fl} {l l' : List (Ind D ℕ)} (h : older age a w b l = .ok l') :
    ∀ e ∈ l', ∃ e' ∈ l, e.x = e'.x ∧ e.f = e'.f := by
  induction l generalizing l' with
  | nil => cases h; simp
  | cons c l ih =>
    simp only [older, bind, Except.bind] at h
    split at h
    · cases h
    split at h
    · cases h
    rename_i life _ rest hr
    cases h
    intro e he
    split at he
    · rcases List.mem_cons.1 he with rfl | he
      · exact ⟨c, by simp, rfl, rfl⟩
      · obtain ⟨e', h1, h2⟩ := ih hr e he; exact ⟨e', by simp [h1], h2⟩
    · obtain ⟨e', h1, h2⟩ := ih hr e he; exact ⟨e', by simp [h1], h2⟩

theorem older_no_oof {age : AgeArgs → Fl} {a w b : Fl} {l : List (Ind D ℕ)} : older age a w b l ≠ .error .outOfFuel := by
  induction l with
  | nil => nofun
  | cons c l ih =>
    simp only [older, bind, Except.bind]
    split
    · rename_i e he
      intro h; cases h
      unfold pyRound at he
      split at he <;> cases he
    · split
      · rename_i e he; intro h; cases h; exact ih he
      · nofun

theorem wp_randInds {opt : OptType} {B : Box D} {n : ℕ} {S : Fl → Prop} (h0 : Cov C S g) {Q : List (Ind D ℕ) → Ghost (Vec D) → Prop}
    (hQ : ∀ r g', Below g'.b g.b → Cov C (fun u => S u ∨ ∃ e ∈ r, u = e.f) g' → PopOK C r g'.b → r.length = n → g'.c = g.c + n → Q r g') :
    (mapM' (List.range n) fun _ => randInd opt B 0).wp C Q g := by
  refine Prog.wp_mono (fun r g' h => ?_) (Prog.wp_below (wp_mapM_cov (fun a : Ind D ℕ => a.x) (fun a => a.f) (fun _ => True) 1 h0 fun _ _ g S hS =>
    wp_randInd fun y v _ hv => ⟨(hS.eval v).mono fun u hu => hu.symm, .new hv, trivial, rfl⟩))
  obtain ⟨⟨h1, h2, -, h3, h4⟩, hb⟩ := h
  exact hQ r g' hb h1 h2 (by simpa using h3) (by simpa using h4)

theorem wp_aging {opt : OptType} {B : Box D} {N : ℕ} {age : AgeArgs → Fl} {l : List (Ind D ℕ)} {S : Fl → Prop} (hl : PopOK C l g.b)
    (h0 : Cov C S g) {Q : List (Ind D ℕ) → Ghost (Vec D) → Prop}
    (hQ : ∀ l' g', Below g'.b g.b → PopOK C l' g'.b → Cov C (fun u => S u ∨ ∃ e ∈ l', u = e.f) g' →
      (g'.c = g.c ∧ g' = g ∨ g'.c = g.c + N ∧ l'.length = N) → Q l' g') :
    (aging opt B N age l).wp C Q g := by
  simp only [aging, Prog.wp_bind']
  refine wp_argminRec fun b _ _ => ?_
  rw [Prog.wp_ofExcept]
  refine ⟨fun l' hl' => ?_, fun h => absurd h older_no_oof⟩
  split
  · exact wp_randInds h0 fun r g' hb hc hp hlen hn => hQ r g' hb hp hc (Or.inr ⟨hn, hlen⟩)
  · refine hQ l' g (Below.refl _) (fun e he => ?_) (h0.mono fun u hu => Or.inl hu) (Or.inl ⟨rfl, rfl⟩)
    obtain ⟨e', h1, h2, h3⟩ := older_fit hl' e he
    rw [h2, h3]; exact hl e' h1

theorem Yields.postAging {N : ℕ} {p : AgePar} {l : List (Ind D ℕ)} : Yields C (postAging N p l) fun l' =>
    (∀ e ∈ l', e ∈ l) ∧ (l.length ≤ N → l' = l) := by
  unfold DE.postAging
  split
  · unfold decrement
    refine .bindT Yields.look fun v => .ite (fun _ => .pure' ⟨fun _ h => h, fun _ => rfl⟩) fun _ => .bindT (by yields) fun ni => ?_
    refine .bind' (Yields.mapMAll (P := fun r => ∀ e, r = some e → e ∈ l) fun i _ => ?_) fun r hr =>
      .pure' ⟨fun e he => ?_, by omega⟩
    · refine .ite (fun _ => .bindT Yields.rand.quiet fun r => .pure' fun e he => ?_) fun _ => .pure' fun e he => ?_
      · split at he
        · cases he; exact List.get_mem _ _
        · cases he
      · cases he; exact List.get_mem _ _
    · simp only [List.mem_filterMap, id] at he
      obtain ⟨a, ha, rfl⟩ := he
      exact hr.1 _ ha e rfl
  · exact .pure' ⟨fun _ h => h, fun _ => rfl⟩

theorem wp_iterAging {opt : OptType} {B : Box D} {N : ℕ} {ev : Evolve D ℕ} {m : ℕ} (hev : EvolveOK ev m) {p : AgePar} {age : AgeArgs → Fl}
    {l : List (Ind D ℕ)} {xb : Vec D} {fxb : Fl} (hl : PopOK C l g.b) (hinc : Inc C xb fxb g) :
    (iter ev (selectAging opt B N p age) (postAging N p) l xb fxb).wp C (fun r g' => PopOK C r.1 g'.b ∧ Inc C r.2.1 r.2.2 g' ∧
      g.c + 1 ≤ g'.c) g := by
  simp only [iter, Prog.wp_bind', selectAging]
  refine Prog.wp_mono (fun new g1 h1 => ?_) (Prog.wp_below (hev C (Or.inl rfl) g _ l xb hinc.cov))
  obtain ⟨⟨hc1, hf1, hn1⟩, hb1⟩ := h1
  refine wp_select (PopOK.mono hl hb1) hf1 (hinc.toFit.mono hb1) hc1 fun arr r hp hlen hi => ?_
  simp only [increment, Prog.wp_bind']
  refine Yields.look.wp fun v _ => wp_randInds hi.cov fun born g2 hb2 hc2 hp2 hl2 hn2 => ?_
  have hp2' : PopOK C (arr ++ born) g2.b := fun e he => by
    rcases List.mem_append.1 he with he | he
    · exact hp.mono hb2 e he
    · exact hp2 e he
  refine wp_best hp2' (hi.toFit.mono hb2) (hc2.mono fun u hu => hu.imp_right fun ⟨e, he, h⟩ => ⟨e, by simp [he], h⟩) fun r2 hi2 => ?_
  refine wp_aging hp2' hi2.cov fun l3 g3 hb3 hp3 hc3 hn3 => ?_
  refine Yields.postAging.wp fun l4 h4 => ?_
  have hp4 : PopOK C l4 g3.b := fun e he => hp3 e (h4.1 e he)
  refine wp_best hp4 (hi2.toFit.mono hb3) ?_ fun r4 hi4 => ?_
  · rcases hn3 with ⟨-, rfl⟩ | ⟨-, hN⟩
    · exact hi2.cov.mono fun u hu => Or.inl hu
    · rw [h4.2 (le_of_eq hN)]; exact hc3
  · refine ⟨hp4, hi4, ?_⟩
    have : 1 ≤ deltaPop N p.deltaNp (Arith.fn .sin (Fl.ofNat (v.iters + 1))) := le_max_left _ _
    omega

theorem verifiedAging (opt : OptType) (B : Box D) (N : ℕ) {strat : Strategy D} (hs : QuietStrategy strat) (f cr : Fl) (p : AgePar)
    (age : AgePar → AgeArgs → Fl) : Verified (algAging opt B N strat f cr p age) (fun _ => False) true true ⟨N, 1, none⟩ := by
  refine ⟨fun C (l : List (Ind D ℕ)) b => PopOK C l b, fun C _ hent _ => ⟨fun s b h => forall₂_map h, fun g hg => ?_, ?_⟩⟩
  · exact wp_init hg fun l g' h1 h2 h3 h4 => ⟨h1, h3, h4⟩
  · intro s xb fxb g hI hF hc
    refine Prog.wp_mono (fun r g' h => ?_) (wp_iterAging (evolveOK opt 0 hs f cr) hI ⟨hF, hc⟩)
    obtain ⟨h1, h3, h4⟩ := h
    exact ⟨h1, h3.fit, h3.eq, h4, fun h hh => by cases hh⟩

/-! ### The strategies -/

/-- C50: with more than `k` individuals the `k` parents of a strategy are different individuals and none of them is the
target; every coordinate of the trial vector is that of the mutant or that of the target, at least one is that of the
mutant; with `cr ≥ 1` all are, with `cr ≤ 0` only one. -/
theorem C50_trial {k n : ℕ} (m : {n : ℕ} → (Fin n → Vec D) → Fin n → (Fin k → Fin n) → Fl → Vec D → Vec D) (pop : Fin n → Vec D) (ic : Fin n)
    (f cr : Fl) (xb : Vec D) (hk : k < n) (env : Env (Vec D)) (w w' : World (Vec D)) (y : Vec D)
    (h : (strategy k m pop ic f cr xb).run env w = (.ok y, w')) :
    ∃ r : Fin k → Fin n, Function.Injective r ∧ (∀ i, r i ≠ ic) ∧ (∀ i, y i = m pop ic r f xb i ∨ y i = pop ic i) ∧
      (∃ i, y i = m pop ic r f xb i) ∧ (.fin 1 ≤ cr → ∀ i, y i = m pop ic r f xb i) ∧
      (cr ≤ .fin 0 → ∃ j, ∀ i, i ≠ j → y i = pop ic i) := by
  refine Yields.run (P := fun y => ∃ r : Fin k → Fin n, Function.Injective r ∧ (∀ i, r i ≠ ic) ∧ (∀ i, y i = m pop ic r f xb i ∨ y i = pop ic i) ∧
      (∃ i, y i = m pop ic r f xb i) ∧ (.fin 1 ≤ cr → ∀ i, y i = m pop ic r f xb i) ∧
      (cr ≤ .fin 0 → ∃ j, ∀ i, i ≠ j → y i = pop ic i)) ?_ h
  unfold strategy binomial
  refine .bindT Yields.intFin fun j => .bind' Yields.parents fun r hr => ?_
  refine (Yields.tabM (P := fun i v => ∃ q, Fl.fin 0 ≤ q ∧ q < Fl.fin 1 ∧ v = if q < cr ∨ i = j then m pop ic r f xb i else pop ic i) fun i =>
    .bind' Yields.rand fun q hq => .pure' ⟨q, hq.1, hq.2, rfl⟩).mono fun y hy => ?_
  refine ⟨r, hr.1 hk.le, hr.2 hk, fun i => ?_, ⟨j, ?_⟩, fun h1 i => ?_, fun h0 => ⟨j, fun i hi => ?_⟩⟩
  · obtain ⟨q, -, -, h⟩ := hy i
    rw [h]; split
    · exact Or.inl rfl
    · exact Or.inr rfl
  · obtain ⟨q, -, -, h⟩ := hy j
    rw [h, if_pos (Or.inr rfl)]
  · obtain ⟨q, -, h2, h⟩ := hy i
    rw [h, if_pos (Or.inl (Fl.lt_of_lt_of_le h2 h1))]
  · obtain ⟨q, h2, -, h⟩ := hy i
    rw [h, if_neg]
    rintro (hlt | rfl)
    · exact Fl.not_lt_of_le h2 (Fl.lt_of_lt_of_le hlt h0)
    · exact hi rfl

/-- C50 for `cross_rand1`, spelled out. -/
theorem C50_crossRand1 {n : ℕ} (pop : Fin n → Vec D) (ic : Fin n) (f cr : Fl) (xb : Vec D) (hn : 3 < n) (env : Env (Vec D))
    (w w' : World (Vec D)) (y : Vec D) (h : (crossRand1 pop ic f cr xb).run env w = (.ok y, w')) :
    ∃ a b c : Fin n, a ≠ b ∧ a ≠ c ∧ b ≠ c ∧ a ≠ ic ∧ b ≠ ic ∧ c ≠ ic ∧
      (∀ i, y i = pop a i + f * (pop b i - pop c i) ∨ y i = pop ic i) ∧ ∃ i, y i = pop a i + f * (pop b i - pop c i) := by
  obtain ⟨r, h1, h2, h3, h4, -⟩ := C50_trial _ pop ic f cr xb hn env w w' y h
  exact ⟨r 0, r 1, r 2, h1.ne (by decide), h1.ne (by decide), h1.ne (by decide), h2 _, h2 _, h2 _, h3, h4⟩

/-- C50 for `cross_best1`, spelled out. -/
theorem C50_crossBest1 {n : ℕ} (pop : Fin n → Vec D) (ic : Fin n) (f cr : Fl) (xb : Vec D) (hn : 2 < n) (env : Env (Vec D))
    (w w' : World (Vec D)) (y : Vec D) (h : (crossBest1 pop ic f cr xb).run env w = (.ok y, w')) :
    ∃ a b : Fin n, a ≠ b ∧ a ≠ ic ∧ b ≠ ic ∧
      (∀ i, y i = xb i + f * (pop a i - pop b i) ∨ y i = pop ic i) ∧ ∃ i, y i = xb i + f * (pop a i - pop b i) := by
  obtain ⟨r, h1, h2, h3, h4, -⟩ := C50_trial _ pop ic f cr xb hn env w w' y h
  exact ⟨r 0, r 1, h1.ne (by decide), h2 _, h2 _, h3, h4⟩

/-- C50 for `cross_rand2`, spelled out. -/
theorem C50_crossRand2 {n : ℕ} (pop : Fin n → Vec D) (ic : Fin n) (f cr : Fl) (xb : Vec D) (hn : 5 < n) (env : Env (Vec D))
    (w w' : World (Vec D)) (y : Vec D) (h : (crossRand2 pop ic f cr xb).run env w = (.ok y, w')) :
    ∃ r : Fin 5 → Fin n, Function.Injective r ∧ (∀ i, r i ≠ ic) ∧
      (∀ i, y i = pop (r 0) i + f * (pop (r 1) i - pop (r 2) i) + f * (pop (r 3) i - pop (r 4) i) ∨ y i = pop ic i) ∧
      ∃ i, y i = pop (r 0) i + f * (pop (r 1) i - pop (r 2) i) + f * (pop (r 3) i - pop (r 4) i) := by
  obtain ⟨r, h1, h2, h3, h4, -⟩ := C50_trial _ pop ic f cr xb hn env w w' y h
  exact ⟨r, h1, h2, h3, h4⟩

/-- C50 for `cross_best2`, spelled out. -/
theorem C50_crossBest2 {n : ℕ} (pop : Fin n → Vec D) (ic : Fin n) (f cr : Fl) (xb : Vec D) (hn : 4 < n) (env : Env (Vec D))
    (w w' : World (Vec D)) (y : Vec D) (h : (crossBest2 pop ic f cr xb).run env w = (.ok y, w')) :
    ∃ r : Fin 4 → Fin n, Function.Injective r ∧ (∀ i, r i ≠ ic) ∧
      (∀ i, y i = xb i + f * (pop (r 0) i - pop (r 1) i) + f * (pop (r 2) i - pop (r 3) i) ∨ y i = pop ic i) ∧
      ∃ i, y i = xb i + f * (pop (r 0) i - pop (r 1) i) + f * (pop (r 2) i - pop (r 3) i) := by
  obtain ⟨r, h1, h2, h3, h4, -⟩ := C50_trial _ pop ic f cr xb hn env w w' y h
  exact ⟨r, h1, h2, h3, h4⟩

/-- C50 for `cross_curr2rand1`, spelled out. -/
theorem C50_crossCurr2Rand1 {n : ℕ} (pop : Fin n → Vec D) (ic : Fin n) (f cr : Fl) (xb : Vec D) (hn : 4 < n) (env : Env (Vec D))
    (w w' : World (Vec D)) (y : Vec D) (h : (crossCurr2Rand1 pop ic f cr xb).run env w = (.ok y, w')) :
    ∃ r : Fin 4 → Fin n, Function.Injective r ∧ (∀ i, r i ≠ ic) ∧
      (∀ i, y i = pop ic i + f * (pop (r 0) i - pop (r 1) i) + f * (pop (r 2) i - pop (r 3) i) ∨ y i = pop ic i) ∧
      ∃ i, y i = pop ic i + f * (pop (r 0) i - pop (r 1) i) + f * (pop (r 2) i - pop (r 3) i) := by
  obtain ⟨r, h1, h2, h3, h4, -⟩ := C50_trial _ pop ic f cr xb hn env w w' y h
  exact ⟨r, h1, h2, h3, h4⟩

/-- C50 for `cross_curr2best1`, spelled out. -/
theorem C50_crossCurr2Best1 {n : ℕ} (pop : Fin n → Vec D) (ic : Fin n) (f cr : Fl) (xb : Vec D) (hn : 3 < n) (env : Env (Vec D))
    (w w' : World (Vec D)) (y : Vec D) (h : (crossCurr2Best1 pop ic f cr xb).run env w = (.ok y, w')) :
    ∃ a b c : Fin n, a ≠ b ∧ a ≠ c ∧ b ≠ c ∧ a ≠ ic ∧ b ≠ ic ∧ c ≠ ic ∧
      (∀ i, y i = pop ic i + f * (xb i - pop a i) + f * (pop b i - pop c i) ∨ y i = pop ic i) ∧
      ∃ i, y i = pop ic i + f * (xb i - pop a i) + f * (pop b i - pop c i) := by
  obtain ⟨r, h1, h2, h3, h4, -⟩ := C50_trial _ pop ic f cr xb hn env w w' y h
  exact ⟨r 0, r 1, r 2, h1.ne (by decide), h1.ne (by decide), h1.ne (by decide), h2 _, h2 _, h2 _, h3, h4⟩

/-- A strategy with four individuals runs without an exception (the hypotheses of C50 can be met). -/
example : ∃ y w', (@crossRand1 Ex.arith 2 4 (fun i j => .fin (i + j)) 1 (.fin (1 / 2)) (.fin (9 / 10)) (fun _ => 0)).run Ex.env2
    (World.init .minimization) = (.ok y, w') := by
  have h : (match ((@crossRand1 Ex.arith 2 4 (fun i j => .fin (i + j)) 1 (.fin (1 / 2)) (.fin (9 / 10)) (fun _ => 0)).run Ex.env2
    (World.init .minimization)).1 with | .ok _ => true | .error _ => false) = true := by decide +kernel
  rcases hr : (@crossRand1 Ex.arith 2 4 (fun i j => .fin (i + j)) 1 (.fin (1 / 2)) (.fin (9 / 10)) (fun _ => 0)).run Ex.env2
    (World.init .minimization) with ⟨e | y, w'⟩
  · rw [hr] at h; cases h
  · exact ⟨y, w', rfl⟩

/-! ### Halving the population -/

omit [Arith] in
/-- C51, for an even number of individuals: the reduction keeps an individual at least as good as any other. -/
theorem C51_halve_partial (l : List (Ind D E)) (hev : l.length % 2 = 0) (hnn : ∀ e ∈ l, e.f ≠ .nan) :
    ∀ e ∈ l, ∃ e' ∈ halve l, e'.f ≤ e.f := by
  intro e he
  obtain ⟨n, hn, rfl⟩ := List.mem_iff_getElem.1 he
  have hmem : ∀ (k : ℕ) (h : k < l.length), l[k].f ≠ .nan := fun k h => hnn _ (List.getElem_mem h)
  have key : ∀ i : Fin (l.length / 2), ∃ e' ∈ halve l, e'.f ≤ (l[i.1]'(by omega)).f ∧ e'.f ≤ (l[i.1 + l.length / 2]'(by omega)).f := by
    intro i
    refine ⟨_, List.mem_ofFn.2 ⟨i, rfl⟩, ?_⟩
    simp only [List.get_eq_getElem]
    split
    · exact ⟨Fl.le_refl (hmem _ _), Fl.le_of_lt ‹_›⟩
    · exact ⟨Fl.le_of_not_lt (hmem _ _) (hmem _ _) ‹_›, Fl.le_refl (hmem _ _)⟩
  by_cases h : n < l.length / 2
  · obtain ⟨e', h1, h2, -⟩ := key ⟨n, h⟩; exact ⟨e', h1, h2⟩
  · obtain ⟨e', h1, -, h2⟩ := key ⟨n - l.length / 2, by omega⟩
    refine ⟨e', h1, ?_⟩
    have : n - l.length / 2 + l.length / 2 = n := by omega
    simpa [this] using h2

/-- C51 is false for an odd number of individuals: the last one is dropped even if it is the best (de.py:530-531). -/
theorem C51_halve_false : ∃ l : List (Ind 1 Unit), 3 < l.length ∧ (∀ e ∈ l, e.f ≠ .nan) ∧ ∃ e ∈ l, ∀ e' ∈ halve l, e.f < e'.f :=
  ⟨[⟨fun _ => 0, .fin 4, ()⟩, ⟨fun _ => 0, .fin 3, ()⟩, ⟨fun _ => 0, .fin 5, ()⟩, ⟨fun _ => 0, .fin 6, ()⟩, ⟨fun _ => 0, .fin 1, ()⟩],
    by decide, by decide, ⟨fun _ => 0, .fin 1, ()⟩, by simp, by
      intro e' he'
      simp [halve, List.ofFn_succ] at he'
      rcases he' with rfl | rfl <;> decide +kernel⟩

/-! ### Aging -/

/-- An objective that is 0 everywhere. -/
def Ex.zeroEnv : Env (Vec 1) := Ex.env (fun _ _ => .ok (.fin 0)) .minimization none (some 3) none Ex.draws fun _ _ x i => Ex.clip1 (x i)

/-- C52 is false of `AgingNpDifferentialEvolution` with its defaults: if all individuals have fitness 0, their lifetime is
`0 + 6 * 0 / 0`, and rounding it raises `ValueError` (de.py:550, 753). -/
theorem C52_aging_false :
    ((@algAging Ex.arith 1 .minimization (Ex.box 1) 3 (@crossRand1 Ex.arith 1) (.fin (1 / 2)) (.fin (9 / 10))
      ⟨.fin 0, .fin 12, .fin (3 / 10), .fin (3 / 10)⟩ (@proportional Ex.arith)).exec Ex.zeroEnv true 0 5).1 = .error .valueError := by
  have h : (match ((@algAging Ex.arith 1 .minimization (Ex.box 1) 3 (@crossRand1 Ex.arith 1) (.fin (1 / 2)) (.fin (9 / 10))
      ⟨.fin 0, .fin 12, .fin (3 / 10), .fin (3 / 10)⟩ (@proportional Ex.arith)).exec Ex.zeroEnv true 0 5).1 with
      | .error .valueError => true | _ => false) = true := by decide +kernel
  split at h
  · assumption
  · cases h

/-! ### Runs -/

example : (alg .minimization (Ex.box 2) 4 (@crossRand1 Ex.arith 2) (.fin (1 / 2)) (.fin (9 / 10))).okIters Ex.env2 1 5 = some 2 := by
  decide +kernel
example : (algMulti .minimization (Ex.box 1) 4 [@crossRand1 Ex.arith 1, @crossBest1 Ex.arith 1, @crossCurr2Best1 Ex.arith 1]
    (.fin (1 / 2)) (.fin (9 / 10))).okIters Ex.env2 1 5 = some 2 := by decide +kernel
example : (algDyn .minimization (Ex.box 1) 5 (@crossRand1 Ex.arith 1) (.fin (1 / 2)) (.fin (9 / 10)) 4 0).okIters
    (Ex.env2 4 (some 40)) 1 6 = some 4 := by decide +kernel
example : (@algAging Ex.arith 1 .minimization (Ex.box 1) 3 (@crossRand1 Ex.arith 1) (.fin (1 / 2)) (.fin (9 / 10))
    ⟨.fin 0, .fin 12, .fin (3 / 10), .fin (3 / 10)⟩ (@proportional Ex.arith)).okIters Ex.env2 1 5 = some 2 := by decide +kernel

end NiaPy.DE
