import Verif.AlgTools

/-!
# Artificial bee colony (`niapy/algorithms/basic/abc.py`)
-/

namespace NiaPy.ABC
open NiaPy
variable [Arith] {D N : ℕ}

/-- State of a run: individuals and `trials` (abc.py:128-147). `food_number = population_size // 2` (abc.py:89). -/
structure St (D N : ℕ) where
  pop : Fin N → Indiv D
  trials : Fin (N / 2) → ℕ

/-- Food source `i` as an individual of the population. -/
def emb (i : Fin (N / 2)) : Fin N := ⟨i, by have := i.2; omega⟩

/-- State inside `run_iteration`. -/
structure Loc (D N : ℕ) extends St D N where
  xb : Vec D
  fxb : Fl

/-- `calculate_probabilities` (abc.py:115-126). -/
def probabilities (s : Loc D N) : Fin (N / 2) → Fl :=
  let p : Fin (N / 2) → Fl := fun i => 1 / ((s.pop (emb i)).f + lit 1 100)
  fun i => p i / vsum p

/-- A new random solution for food source `i` after too many trials (abc.py:188-190, 212-214). -/
def scout (opt : OptType) (B : Box D) (i : Fin (N / 2)) (s : Loc D N) : Prog (Vec D) (Loc D N) := do
  let y ← Indiv.random opt B
  let b := betterLt y.x y.f s.xb s.fxb
  return { s with pop := Function.update s.pop (emb i) y, trials := Function.update s.trials i 0, xb := b.1, fxb := b.2 }

/-- The candidate next to food source `s` with respect to `neighbor`, evaluated (abc.py:173-178, 195-202). -/
def candidate (xs xn : Vec D) (k : Fin D) : Prog (Vec D) (Indiv D) := do
  let u ← Prog.unif (-1) 1
  Indiv.evaluate ⟨Function.update xs k (xs k + u * (xs k - xn k)), .pinf⟩

/-- An improvement of food source `i` (abc.py:179-184, 203-208). -/
def improve (i : Fin (N / 2)) (y : Indiv D) (s : Loc D N) : Loc D N :=
  let b := betterLt y.x y.f s.xb s.fxb
  { s with pop := Function.update s.pop (emb i) y, trials := Function.update s.trials i 0, xb := b.1, fxb := b.2 }

/-- Employed bee `i` (abc.py:172-190). -/
def employed (opt : OptType) (B : Box D) (limit : ℕ) (i : Fin (N / 2)) (s : Loc D N) : Prog (Vec D) (Loc D N) := do
  let k ← scaleIdx D
  let n ← scaleIdx (N / 2)
  let y ← candidate (s.pop (emb i)).x (s.pop (emb n)).x k
  if y.f < (s.pop (emb i)).f then return improve i y s
  else do
    let s := { s with trials := Function.update s.trials i (s.trials i + 1) }
    if limit ≤ s.trials i then scout opt B i s else return s

/-- `while neighbor == s` (abc.py:197-199), cut off after `fuel` draws. -/
def neighbor (i : Fin (N / 2)) : ℕ → Prog (Vec D) (Fin (N / 2))
  | 0 => .throw .outOfFuel
  | fuel + 1 => do
    let n ← scaleIdx (N / 2)
    if n = i then neighbor i fuel else return n

/-- Onlooker bee at food source `i` (abc.py:195-214). The limit is checked for the stale index `last` of the loop before
(abc.py:211-214), not for `i`. -/
def onlooker (opt : OptType) (B : Box D) (limit fuel : ℕ) (last i : Fin (N / 2)) (s : Loc D N) : Prog (Vec D) (Loc D N) := do
  let k ← scaleIdx D
  let n ← neighbor i fuel
  let y ← candidate (s.pop (emb i)).x (s.pop (emb n)).x k
  if y.f < (s.pop (emb i)).f then return improve i y s
  else do
    let s := { s with trials := Function.update s.trials i (s.trials i + 1) }
    if limit ≤ s.trials last then scout opt B last s else return s

/-- `while t < self.food_number` (abc.py:192-217), cut off after `fuel` rounds; `i` is the variable `s` of the source. -/
def onlookers (opt : OptType) (B : Box D) (limit fuel0 : ℕ) (prob : Fin (N / 2) → Fl) (last : Fin (N / 2)) :
    ℕ → ℕ → Fin (N / 2) → Loc D N → Prog (Vec D) (Loc D N)
  | 0, _, _, _ => .throw .outOfFuel
  | fuel + 1, t, i, s =>
    if t < N / 2 then do
      let r ← Prog.rand
      let (t, s) ← (if r < prob i then do
          let s ← onlooker opt B limit fuel0 last i s
          return (t + 1, s)
        else return (t, s))
      let i' : Fin (N / 2) := if h : i.1 + 1 < N / 2 then ⟨i.1 + 1, h⟩ else ⟨0, by have := i.2; omega⟩
      onlookers opt B limit fuel0 prob last fuel t i' s
    else return s

/-- `run_iteration` (abc.py:149-218). -/
def iter (opt : OptType) (B : Box D) (limit fuel : ℕ) (s : St D N) (xb : Vec D) (fxb : Fl) :
    Prog (Vec D) (St D N × Vec D × Fl) := do
  let s ← forFin (N / 2) (employed opt B limit) { s with xb, fxb }
  let s ← (if h : 0 < N / 2 then
      onlookers opt B limit fuel (probabilities s) ⟨N / 2 - 1, by omega⟩ fuel 0 ⟨0, h⟩ s
    else return s)
  return (s.toSt, s.xb, s.fxb)

/-- Artificial bee colony with population size `N` (abc.py). Loops without a bound are cut off after `fuel` rounds. -/
def alg (opt : OptType) (B : Box D) (N limit fuel : ℕ) : Alg (Vec D) where
  σ := St D N
  init := do
    let pop ← defaultIndividualInit opt B N
    return ⟨pop, fun _ => 0⟩
  pop s := List.ofFn fun i => (s.pop i).x
  fit s := List.ofFn fun i => (s.pop i).f
  iter := iter opt B limit fuel

variable {C : Ctx (Vec D)}

/-- Invariant inside an iteration. -/
structure Ok (C : Ctx (Vec D)) (s : Loc D N) (g : Ghost (Vec D)) : Prop where
  fit : ∀ i, C.Fit g.b (s.pop i).x (s.pop i).f
  inc : Inc C s.xb s.fxb g

theorem fit_update {pop : Fin N → Indiv D} {b : Fl} (h : ∀ i, C.Fit b (pop i).x (pop i).f) (i : Fin N) {y : Indiv D}
    (hy : C.Fit b y.x y.f) : ∀ j, C.Fit b (Function.update pop i y j).x (Function.update pop i y j).f := fun j => by
  by_cases hj : j = i
  · subst hj; simpa using hy
  · simpa [hj] using h j

theorem wp_scout {opt : OptType} {B : Box D} {i : Fin (N / 2)} {s : Loc D N} {g : Ghost (Vec D)} (h : Ok C s g)
    {Q : Loc D N → Ghost (Vec D) → Prop} (hQ : ∀ s' g', Ok C s' g' → g'.c = g.c + 1 → Q s' g') :
    (scout opt B i s).wp C Q g := by
  simp only [scout, Prog.wp_bind']
  refine wp_indivRandom fun y v _ hv => hQ _ _ ⟨?_, h.inc.betterLt hv⟩ rfl
  exact fit_update (fun i => (h.fit i).eval v) _ (.new hv)

theorem wp_candidate {xs xn : Vec D} {k : Fin D} {g : Ghost (Vec D)} {Q : Indiv D → Ghost (Vec D) → Prop}
    (h : ∀ y v, C.F y v → Q ⟨y, v⟩ (g.eval v)) : (candidate xs xn k).wp C Q g := by
  simp only [candidate, Prog.wp_bind', Prog.wp_unif]
  exact fun _ _ => wp_evaluate fun y v _ hv => h y v hv

/-- After the candidate of food source `i` was evaluated. `j` is the food source whose trials are checked. -/
theorem wp_after {opt : OptType} {B : Box D} {limit : ℕ} {i j : Fin (N / 2)} {s : Loc D N} {g : Ghost (Vec D)} (h : Ok C s g)
    {y : Indiv D} (hy : C.F y.x y.f) {Q : Loc D N → Ghost (Vec D) → Prop}
    (hQ : ∀ s' g', Ok C s' g' → g.c + 1 ≤ g'.c ∧ g'.c ≤ g.c + 2 → Q s' g') :
    (if y.f < (s.pop (emb i)).f then return improve i y s
      else do
        let s := { s with trials := Function.update s.trials i (s.trials i + 1) }
        if limit ≤ s.trials j then scout opt B j s else return s : Prog (Vec D) (Loc D N)).wp C Q (g.eval y.f) := by
  rw [wp_ite]
  refine ⟨fun _ => ?_, fun hlt => ?_⟩
  · refine hQ _ _ ⟨fit_update (fun i => (h.fit i).eval _) _ (.new hy), h.inc.betterLt hy⟩ ?_
    simp [Ghost.eval]
  · have hk : Ok C { s with trials := Function.update s.trials i (s.trials i + 1) } (g.eval y.f) := by
      refine ⟨fun i => (h.fit i).eval _, h.inc.keep fun hn => ?_⟩
      exact Fl.le_trans (h.inc.le_fit (h.fit (emb i)) hn)
        (Fl.le_of_not_lt (hn _ _ hy) (hn _ _ (h.fit (emb i)).1) hlt)
    simp only
    rw [wp_ite]
    refine ⟨fun _ => ?_, fun _ => hQ _ _ hk (by simp [Ghost.eval])⟩
    exact wp_scout hk fun s' g' h' hc => hQ s' g' h' (by rw [hc]; simp [Ghost.eval])

theorem neighbor_quiet (ho : C.oof) (i : Fin (N / 2)) (fuel : ℕ) : Quiet C (neighbor (D := D) i fuel) := by
  induction fuel with
  | zero => exact .throw fun _ => ho
  | succ fuel ih =>
    exact Yields.bindT Yields.scaleIdx fun n => Yields.ite (fun _ => ih) fun _ => .pure' trivial

/-- The obligations of artificial bee colony: per iteration between `2 * food_number` and `4 * food_number` evaluations. -/
theorem verified (opt : OptType) (B : Box D) (N limit fuel : ℕ) :
    Verified (alg opt B N limit fuel) B.Mem true false ⟨N, 2 * (N / 2), some (4 * (N / 2))⟩ := by
  refine ⟨fun C s b => ∀ i, C.Fit b (s.pop i).x (s.pop i).f, fun C hG _ ho => ⟨fun s b h => forall₂_ofFn h, fun g hg => ?_, ?_⟩⟩
  · simp only [alg, Prog.wp_bind']
    refine Prog.wp_mono (fun r g' h => ?_) (wp_defaultIndividualInit (Cov.pinf hg fun _ => False))
    exact ⟨h.2.1, h.2.2.1.mono fun u hu => mem_ofFn_iff.2 (hu.resolve_left id), h.2.2.2⟩
  · intro s xb fxb g hI hF hc
    simp only [alg, iter, Prog.wp_bind']
    refine Prog.wp_mono ?_ (wp_forFin (fun k a g' => Ok C a g' ∧ g.c + k ≤ g'.c ∧ g'.c ≤ g.c + 2 * k)
      ⟨⟨hI, ⟨hF, hc⟩⟩, by simp⟩ ?_)
    · rintro s1 g1 ⟨h1, h2⟩
      have key : ∀ (prob : Fin (N / 2) → Fl) last fuel0 fuel t i (s : Loc D N) g2, Ok C s g2 → t ≤ N / 2 →
          g1.c + t ≤ g2.c ∧ g2.c ≤ g1.c + 2 * t → (onlookers opt B limit fuel0 prob last fuel t i s).wp C
            (fun s g' => Ok C s g' ∧ g1.c + N / 2 ≤ g'.c ∧ g'.c ≤ g1.c + 2 * (N / 2)) g2 := by
        intro prob last fuel0 fuel
        induction fuel with
        | zero => intros; exact fun _ => ho rfl
        | succ fuel ih =>
          intro t i s g2 hs ht hcnt
          rw [onlookers, wp_ite]
          refine ⟨fun hlt => ?_, fun hlt => ⟨hs, by omega⟩⟩
          simp only [Prog.wp_bind', Prog.wp_rand]
          intro r _ _
          rw [wp_ite]
          refine ⟨fun _ => ?_, fun _ => ih _ _ _ _ hs ht hcnt⟩
          simp only [onlooker, Prog.wp_bind']
          refine Yields.scaleIdx.wp fun k _ => (neighbor_quiet (ho rfl) ..).wp fun n _ => wp_candidate fun y v hv => ?_
          exact wp_after (y := ⟨y, v⟩) hs hv fun s' g' h' hc => ih _ _ _ _ h' (by omega) (by omega)
      split
      · refine Prog.wp_mono ?_ (key _ _ fuel fuel 0 _ s1 g1 h1 (by omega) (by simp))
        rintro s2 g2 ⟨h3, h4⟩
        exact ⟨h3.fit, h3.inc.fit, h3.inc.eq, ⟨by simp only; omega, fun h hh => by cases hh; omega⟩⟩
      · exact ⟨h1.fit, h1.inc.fit, h1.inc.eq, ⟨by simp only; omega, fun h hh => by cases hh; omega⟩⟩
    · rintro i s g1 ⟨h1, h2⟩
      simp only [employed, Prog.wp_bind']
      refine Yields.scaleIdx.wp fun k _ => Yields.scaleIdx.wp fun n _ => wp_candidate fun y v hv => ?_
      exact wp_after (y := ⟨y, v⟩) h1 hv fun s' g' h' hc => ⟨h', by omega⟩

end NiaPy.ABC
