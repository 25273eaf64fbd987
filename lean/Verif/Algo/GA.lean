import Verif.PopTools
import Verif.Runs

/-!
# Genetic algorithm (`niapy/algorithms/basic/ga.py`), with C39
-/

namespace NiaPy.GA
open NiaPy
variable [Arith] {D N : ℕ}

/-- The selection methods (ga.py:17-51). -/
inductive Sel
  | tournament (ts : ℕ)
  | roulette

/-- The crossover methods (ga.py:54-137) with their parameter `cr` (a number of points for `multi`). -/
inductive Cross
  | twoPoint
  | multi (n : ℕ)
  | uniform (cr : Fl)
  | uros (cr : Fl)

/-- The mutation methods (ga.py:140-194) with their parameter `mr`. -/
inductive Mut
  | uniform (mr : Fl)
  | uros (mr : Fl)
  | creep (mr : Fl)

/-- `tournament_selection` and `roulette_selection` (ga.py:17-51): coordinates of the selected individual. -/
def Sel.run (s : Sel) (pop : Fin N → Indiv D) (ic : Fin N) (xb : Vec D) : Prog (Vec D) (Vec D) :=
  match s with
  | .tournament ts => do
    let c ← choiceFin N ts
    let w ← argminRec (fun i : Fin ts => (pop (c i)).f) (List.finRange ts)
    return (pop (c w)).x
  | .roulette => do
    let f := vsum fun i => (pop i).f
    let qi := ((List.finRange N).take (ic + 1)).foldl (fun q i => q + (pop i).f / f) 0
    let r ← Prog.rand
    return if r < qi then (pop ic).x else xb

/-- The loop `while io != ic: io = rng.integers(len(pop))` (ga.py:68-69, 90-91, 112-113, 133-134). -/
def otherLoop (ic : Fin N) : ℕ → Fin N → Prog (Vec D) (Fin N)
  | 0, io => if io ≠ ic then .throw .outOfFuel else return io
  | fuel + 1, io => if io ≠ ic then do
      let io ← intFin N
      otherLoop ic fuel io
    else return io

/-- The index of the second parent: the loop above, started with `io = ic` (ga.py:67-69). -/
def other (fuel : ℕ) (ic : Fin N) : Prog (Vec D) (Fin N) := otherLoop ic fuel ic

/-- `x[a:b] = y[a:b]` -/
def spliceAt (x y : Vec D) (a b : ℕ) : Vec D := fun d => if a ≤ d.1 ∧ d.1 < b then y d else x d

/-- The crossover methods (ga.py:54-137). Two- and multi-point crossover write into the coordinates of the parent `ic`, but
what they write are its own coordinates (`C39_crossover_false`), so this is not visible. -/
def Cross.run (c : Cross) (fuel : ℕ) (pop : Fin N → Indiv D) (ic : Fin N) : Prog (Vec D) (Vec D) :=
  match c with
  | .twoPoint => do
    let io ← other fuel ic
    let r ← choiceRep D 2
    let l := (List.ofFn fun i => (r i).1).insertionSort (· ≤ ·)
    return spliceAt (pop ic).x (pop io).x (l.getD 0 0) (l.getD 1 0)
  | .multi n => do
    let io ← other fuel ic
    let r ← choiceRep D (2 * n)
    let l := (List.ofFn fun i => (r i).1).insertionSort (· ≤ ·)
    return (List.range n).foldl (fun x i => spliceAt x (pop io).x (l.getD (2 * i) 0) (l.getD (2 * i + 1) 0)) (pop ic).x
  | .uniform cr => do
    let io ← other fuel ic
    let j ← intFin D
    let r ← randVec D
    return fun d => if r d < cr ∨ d = j then (pop io).x d else (pop ic).x d
  | .uros cr => do
    let io ← other fuel ic
    let r ← randVec D
    let alpha : Vec D := fun d => cr + (1 + Fl.ofNat 2 * cr) * r d
    return fun d => alpha d * (pop ic).x d + (1 - alpha d) * (pop io).x d

/-- One coordinate of `uniform_mutation` and `creep_mutation` (ga.py:155-156, 192-193): the uniform number is drawn only
when needed. -/
def mutCoord (B : Box D) (mr : Fl) (j d : Fin D) (old : Fl) : Prog (Vec D) Fl := do
  let r ← Prog.rand
  if r < mr ∨ d = j then Prog.unif (B.lo d) (B.hi d) else return old

/-- The mutation methods (ga.py:140-194). -/
def Mut.run (m : Mut) (B : Box D) (pop : Fin N → Indiv D) (ic : Fin N) : Prog (Vec D) (Vec D) :=
  match m with
  | .uniform mr => do
    let j ← intFin D
    tabM D fun d => mutCoord B mr j d ((pop ic).x d)
  | .uros mr => do
    let v ← tabM D fun d => Prog.norm ((pop ic).x d) (mr * (B.hi d - B.lo d))
    return fun d =>
      let a := if v d ≤ B.lo d ∨ v d = .nan then B.lo d else v d
      if B.hi d ≤ a then B.hi d else a
  | .creep mr => do
    let ic ← intFin N
    let j ← intFin D
    tabM D fun d => mutCoord B mr j d ((pop ic).x d)

/-- The operators. -/
structure Par where
  sel : Sel
  cross : Cross
  mutation : Mut

/-- Body of the loop (ga.py:364-370): the results of selection and crossover are overwritten by the mutation. -/
def step (B : Box D) (p : Par) (fuel : ℕ) (pop : Fin N → Indiv D) (i : Fin N) (b : Vec D × Fl) : Prog (Vec D) (Indiv D × Vec D × Fl) := do
  let _ ← p.sel.run pop i b.1
  let _ ← p.cross.run fuel pop i
  let x ← p.mutation.run B pop i
  let ind ← Indiv.evaluate ⟨x, .pinf⟩
  return (ind, if ind.f < b.2 then getBest1 ind.x ind.f b.1 b.2 else b)

/-- `run_iteration` (ga.py:342-371). -/
def iter (B : Box D) (p : Par) (fuel : ℕ) (pop : Fin N → Indiv D) (xb : Vec D) (fxb : Fl) :
    Prog (Vec D) ((Fin N → Indiv D) × Vec D × Fl) :=
  forFin N (fun i a => do
    let r ← step B p fuel pop i a.2
    return (Function.update a.1 i r.1, r.2)) (pop, xb, fxb)

/-- The genetic algorithm with population size `N` (ga.py). -/
def alg (opt : OptType) (B : Box D) (N : ℕ) (p : Par) (fuel : ℕ) : Alg (Vec D) where
  σ := Fin N → Indiv D
  init := defaultIndividualInit opt B N
  pop s := List.ofFn fun i => (s i).x
  fit s := List.ofFn fun i => (s i).f
  iter := iter B p fuel

omit [Arith] in
/-- The second parent is always the first one. -/
theorem other_eq (fuel : ℕ) (ic : Fin N) : (other fuel ic : Prog (Vec D) (Fin N)) = .pure ic := by
  cases fuel <;> simp [other, otherLoop]

variable {C : Ctx (Vec D)}

theorem Sel.quiet (s : Sel) (pop : Fin N → Indiv D) (ic : Fin N) (xb : Vec D) : Quiet C (s.run pop ic xb) := by
  cases s with
  | tournament ts =>
    refine Yields.bindT Yields.choiceFin.quiet fun c => Yields.bindT ⟨fun g => ?_⟩ fun w => .pure' trivial
    exact wp_argminRec fun _ _ _ => ⟨trivial, rfl⟩
  | roulette => exact Yields.bindT Yields.rand.quiet fun r => .pure' trivial

theorem Cross.quiet (c : Cross) (fuel : ℕ) (pop : Fin N → Indiv D) (ic : Fin N) : Quiet C (c.run fuel pop ic) := by
  have ho : Quiet C (other fuel ic : Prog (Vec D) (Fin N)) := by rw [other_eq]; exact .pure trivial
  cases c with
  | twoPoint => exact ho.bindT fun io => Yields.bindT Yields.choiceRep fun r => .pure' trivial
  | multi n => exact ho.bindT fun io => Yields.bindT Yields.choiceRep fun r => .pure' trivial
  | uniform cr => exact ho.bindT fun io => Yields.bindT Yields.intFin fun j => Yields.bindT Yields.randVec.quiet fun r => .pure' trivial
  | uros cr => exact ho.bindT fun io => Yields.bindT Yields.randVec.quiet fun r => .pure' trivial

theorem Mut.quiet (m : Mut) (B : Box D) (pop : Fin N → Indiv D) (ic : Fin N) : Quiet C (m.run B pop ic) := by
  have hc : ∀ mr j d old, Quiet C (mutCoord B mr j d old) := fun mr j d old => by unfold mutCoord; yields
  cases m with
  | uniform mr => exact Yields.bindT Yields.intFin fun j => Yields.tabMT fun d => hc ..
  | uros mr => exact Yields.bindT (Yields.tabMT fun d => Yields.norm) fun v => .pure' trivial
  | creep mr => exact Yields.bindT Yields.intFin fun ic => Yields.bindT Yields.intFin fun j => Yields.tabMT fun d => hc ..

theorem wp_iter (B : Box D) (p : Par) (fuel : ℕ) (s : Fin N → Indiv D) (xb : Vec D) (fxb : Fl) {g : Ghost (Vec D)}
    (hI : ∀ i, C.Fit g.b (s i).x (s i).f) (hinc : Inc C xb fxb g) :
    (iter B p fuel s xb fxb).wp C (fun a g' => (∀ i, C.Fit g'.b (a.1 i).x (a.1 i).f) ∧ Inc C a.2.1 a.2.2 g' ∧ g'.c = g.c + N) g := by
  refine wp_forFin (σ := (Fin N → Indiv D) × Vec D × Fl) (fun k a g' => (∀ i, C.Fit g'.b (a.1 i).x (a.1 i).f) ∧ Inc C a.2.1 a.2.2 g' ∧ g'.c = g.c + k)
    ⟨hI, hinc, rfl⟩ ?_
  rintro i ⟨pop, xb, fxb⟩ g ⟨h1, h2, h3⟩
  simp only [step, Prog.wp_bind']
  refine (Sel.quiet ..).wp fun _ _ => (Cross.quiet ..).wp fun _ _ => (Mut.quiet ..).wp fun x _ => ?_
  refine wp_evaluate fun y v hy hv => ?_
  refine ⟨fun j => ?_, ?_, by simp [Ghost.eval, h3, add_assoc]⟩
  · by_cases hj : j = i
    · subst hj; simpa using Ctx.Fit.new hv
    · simpa [hj] using (h1 j).eval v
  · simp only
    by_cases hlt : v < fxb
    · rw [if_pos hlt]; exact h2.leq hv
    · rw [if_neg hlt]; exact h2.keep_of_not_lt hv hlt

/-- The obligations of the genetic algorithm: `N` evaluations in the beginning and per iteration, everything repaired. -/
theorem verified (opt : OptType) (B : Box D) (N : ℕ) (p : Par) (fuel : ℕ) :
    Verified (alg opt B N p fuel) (fun _ => False) true true (.exact N N) := by
  refine ⟨fun C s b => ∀ i, C.Fit b (s i).x (s i).f, fun C hG hent _ => ⟨fun s b h => forall₂_ofFn h, fun g hg => ?_, ?_⟩⟩
  · exact wp_initInd hg fun r g' _ h2 h3 h4 => ⟨h2, h3, h4⟩
  · intro s xb fxb g hI hF hc
    exact Prog.wp_mono (fun a g' h => ⟨h.1, h.2.1.fit, h.2.1.eq, Cost.ok_exact h.2.2⟩) (wp_iter B p fuel s xb fxb hI ⟨hF, hc⟩)

omit [Arith] in
theorem splice_self (x : Vec D) (a b : ℕ) : spliceAt x x a b = x := by
  funext d; simp [spliceAt]

omit [Arith] in
theorem foldl_splice (x : Vec D) (l : List ℕ) (f g : ℕ → ℕ) : l.foldl (fun y i => spliceAt y x (f i) (g i)) x = x := by
  induction l with
  | nil => rfl
  | cons a l ih => rw [List.foldl_cons, splice_self]; exact ih

/-- C39 is false of the code: `io` starts as `ic`, so the loop that is to find another parent ends at once, whatever the
population; the second parent is always the first one. Two-point, multi-point and uniform crossover therefore return the
first parent unchanged, for all random numbers. -/
theorem C39_crossover_false (fuel : ℕ) (pop : Fin N → Indiv D) (ic : Fin N) :
    (other fuel ic : Prog (Vec D) (Fin N)) = .pure ic ∧
    ∀ c, (c = .twoPoint ∨ (∃ n, c = .multi n) ∨ ∃ cr, c = .uniform cr) →
      ∀ env w r, ((Cross.run c fuel pop ic).run env w).1 = .ok r → r = (pop ic).x := by
  refine ⟨other_eq fuel ic, fun c hc env w r hr => ?_⟩
  have key : Yields (⟨fun _ => True, fun _ _ => True, True, True, True, fun _ => True, False, fun _ _ => True⟩ : Ctx (Vec D)) (Cross.run c fuel pop ic)
      fun r => r = (pop ic).x := by
    have ho : Yields (⟨fun _ => True, fun _ _ => True, True, True, True, fun _ => True, False, fun _ _ => True⟩ : Ctx (Vec D))
        (other fuel ic : Prog (Vec D) (Fin N)) fun io => io = ic := by
      rw [other_eq]; exact .pure rfl
    rcases hc with rfl | ⟨n, rfl⟩ | ⟨cr, rfl⟩
    · exact ho.bind' fun io h => Yields.bindT Yields.choiceRep fun r => .pure' (by subst h; exact splice_self ..)
    · exact ho.bind' fun io h => Yields.bindT Yields.choiceRep fun r => .pure' (by subst h; exact foldl_splice ..)
    · refine ho.bind' fun io h => Yields.bindT Yields.intFin fun j => Yields.bindT Yields.randVec.quiet fun r => .pure' ?_
      subst h; funext d; simp
  obtain ⟨g', -, hq, -⟩ := wp_sound _ env (fun _ _ _ => ⟨trivial, trivial⟩) (Or.inl trivial) _ _ ⟨env.opt.mul w.st.xf, 0, w.events⟩ w (key.out _)
    (fun _ _ _ _ => trivial) rfl rfl
  exact (hq r hr).1

/-- The offspring does not depend on selection and crossover either: the individual evaluated is what the mutation makes of
individual `i` of the old population. Two-individual population: uniform crossover of the first with itself. -/
example : ((@Cross.run Ex.arith _ _ (.uniform 1) 3 (fun i : Fin 2 => (⟨fun _ => if i = 0 then 0 else 1, 0⟩ : Indiv 1)) 0).run Ex.env2
    (World.init .minimization)).1.toOption.map (· 0) = some 0 := by
  decide +kernel

/-- A run with two individuals and two iterations. -/
example : Alg.okIters (@alg Ex.arith 1 .minimization (Ex.box 1) 2 ⟨.tournament 2, .uniform (lit 1 4), .uniform (lit 1 4)⟩ 3)
    Ex.env2 1 5 = some 2 := by decide +kernel

end NiaPy.GA
