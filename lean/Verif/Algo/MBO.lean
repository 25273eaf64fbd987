import Verif.Loose
import Verif.Runs

/-!
# Monarch butterfly optimization (`niapy/algorithms/basic/mbo.py`)

`evaluate_and_sort` is called twice per iteration; between the two calls the worst individuals are replaced by the elite of the
previous iteration. All individuals are evaluated a second time, so that a good value of the first evaluation is lost if the
budget ends in between (`C58_mbo_false`). The adjusting operator always reads coordinate 1 (`C59`).
-/

namespace NiaPy.MBO
open NiaPy
variable [Arith] {D N : ℕ}

/-- Parameters (mbo.py:61-99); `bar` is the same as `partition`. `np1` is `ceil(partition * population_size)`. -/
structure Par where
  partition : Fl
  period : Fl
  np1 : ℕ

/-- State of a run. `cur` is the parameter `current_best`. After `init_population` it is a view of row 0 of the population
(mbo.py:233) and changes with it (`none`). -/
structure St (D N : ℕ) where
  pop : Fin N → Vec D
  fit : Fin N → Fl
  cur : Option (Vec D)

/-- `init_population` (mbo.py:212-233). -/
def init (B : Box D) (N : ℕ) : Prog (Vec D) (St D N) := do
  let (pop, fit) ← defaultNumpyInit B N
  let si ← sortIdx fit
  return ⟨fun i => pop (si i), fun i => fit (si i), none⟩

/-- `pop[k]`, with `IndexError` beyond the end. -/
def row (pop : Fin N → Vec D) (k : ℕ) : Prog (Vec D) (Vec D) :=
  if h : k < N then return pop ⟨k, h⟩ else .throw .indexError

/-- One entry of the result of `migration_operator` (mbo.py:150-156); `pop1` and `pop2` are the first `np1` rows and the others. -/
def migrate1 (p : Par) (pop : Fin N → Vec D) (j : Fin D) : Prog (Vec D) Fl := do
  let r ← Prog.rand
  if r * p.period ≤ p.partition then do
    let k ← Prog.int (p.np1 - 1)
    let y ← row pop k
    return y j
  else do
    let k ← Prog.int (N - p.np1 - 1)
    let y ← row pop (p.np1 + k)
    return y j

/-- `migration_operator` (mbo.py:133-157): only the first `np1` rows change. -/
def migrate (p : Par) (pop : Fin N → Vec D) : Prog (Vec D) (Fin N → Vec D) := tabM N fun i =>
  if i.1 < p.np1 then tabM D fun j => migrate1 p pop j else return pop i

/-- `levy` (mbo.py:119-131). -/
def levy (D : ℕ) : Prog (Vec D) (Vec D) := tabM D fun _ => do
  let u ← tabM 10 fun _ => Prog.unif 0 1
  return vsum fun k => Arith.fn .tan (piF * u k)

/-- `y[1]`: `IndexError` in one dimension. -/
def second (y : Vec D) : Prog (Vec D) Fl := if h : 1 < D then return y ⟨1, h⟩ else .throw .indexError

/-- One entry of the result of `adjusting_operator` (mbo.py:181-187). The code reads `pop2[r4, 1]`. -/
def adjust1 (p : Par) (pop : Fin N → Vec D) (scale : Fl) (dx best : Vec D) (j : Fin D) : Prog (Vec D) Fl := do
  let u ← Prog.unif 0 1
  if p.partition ≤ u then return best j
  else do
    let k ← Prog.int (N - p.np1 - 1)
    let y ← row pop (p.np1 + k)
    let z ← second y
    let u' ← Prog.unif 0 1
    return if p.partition < u' then z + scale * (dx j - lit 1 2) else z

/-- A row of the result of `adjusting_operator` (mbo.py:177-187). The step size (mbo.py:178) is drawn but not used. -/
def adjustRow (p : Par) (t : ℕ) (pop : Fin N → Vec D) (best : Vec D) : Prog (Vec D) (Vec D) := do
  let _ ← Prog.dist (.other 4) 0 1
  let dx ← levy D
  tabM D fun j => adjust1 p pop (1 / Fl.ofNat ((t + 1) * (t + 1))) dx best j

/-- `adjusting_operator` (mbo.py:159-188): only the rows from `np1` on change. -/
def adjust (p : Par) (t : ℕ) (pop : Fin N → Vec D) (best : Vec D) : Prog (Vec D) (Fin N → Vec D) := tabM N fun i =>
  if i.1 < p.np1 then return pop i else adjustRow p t pop best

/-- `evaluate_and_sort` (mbo.py:190-210). -/
def evalSort (pop : Fin N → Vec D) : Prog (Vec D) ((Fin N → Vec D) × (Fin N → Fl)) := do
  let fit ← evalRows pop
  let si ← sortIdx fit
  return (fun i => pop (si i), fun i => fit (si i))

/-- `population[-2:] = elite` where `elite = population[:2]` of the previous iteration (mbo.py:258, 267). -/
def elitism (old pop : Fin N → Vec D) : Fin N → Vec D := fun i =>
  if h : N ≤ i.1 + 2 then old ⟨i.1 + min N 2 - N, by omega⟩ else pop i

/-- `current_best` when `adjusting_operator` reads it: in the first iteration row 0 of the population that has migrated meanwhile. -/
def current (s : St D N) (pop : Fin N → Vec D) : Prog (Vec D) (Vec D) :=
  match s.cur with
  | some x => return x
  | none => row pop 0

/-- `run_iteration` (mbo.py:235-270). -/
def iter (p : Par) (s : St D N) (xb : Vec D) (fxb : Fl) : Prog (Vec D) (St D N × Vec D × Fl) := do
  let v ← Prog.look
  let p1 ← migrate p s.pop
  let p1 ← repairRows p1 false
  let cur ← current s p1
  let p2 ← adjust p v.iters p1 cur
  let p2 ← repairRows p2 false
  let (p3, _) ← evalSort p2
  let p4 := elitism s.pop p3
  let cur ← row p4 0
  let (pop, fit) ← evalSort p4
  let b ← Prog.getBest (List.ofFn pop) (List.ofFn fit) xb fxb
  return (⟨pop, fit, some cur⟩, b)

/-- Monarch butterfly optimization with population size `N` (mbo.py). -/
def alg (B : Box D) (N : ℕ) (p : Par) : Alg (Vec D) where
  σ := St D N
  init := init B N
  pop s := List.ofFn s.pop
  fit s := List.ofFn s.fit
  iter := iter p

variable {C : Ctx (Vec D)}

omit [Arith] in
theorem row_quiet {P : Vec D → Prop} {pop : Fin N → Vec D} (h : ∀ i, P (pop i)) (k : ℕ) : Yields C (row pop k) P := by
  unfold row
  split
  · exact .pure' (h _)
  · exact .throw nofun

omit [Arith] in
theorem row_quiet' {pop : Fin N → Vec D} {k : ℕ} : Quiet C (row pop k) := row_quiet (fun _ => trivial) k

omit [Arith] in
theorem second_quiet {y : Vec D} : Quiet C (second y) := by
  unfold second
  split
  · exact .pure' trivial
  · exact .throw nofun

macro_rules | `(tactic| yields_step) => `(tactic| exact row_quiet')
macro_rules | `(tactic| yields_step) => `(tactic| exact second_quiet)

theorem migrate_quiet (p : Par) (pop : Fin N → Vec D) : Quiet C (migrate p pop) := by
  unfold migrate migrate1
  yields

theorem adjust_quiet (p : Par) (t : ℕ) (pop : Fin N → Vec D) (best : Vec D) : Quiet C (adjust p t pop best) := by
  unfold adjust
  refine .tabMT fun i => .ite (fun _ => .pure' trivial) fun _ => ?_
  unfold adjustRow adjust1 levy
  refine .bindT .dist fun _ => .bindT (by yields) fun _ => by yields

omit [Arith] in
theorem current_quiet (s : St D N) (pop : Fin N → Vec D) : Quiet C (current s pop) := by
  unfold current
  split
  · exact .pure' trivial
  · exact row_quiet'

omit [Arith] in
theorem wp_evalSort {pop : Fin N → Vec D} {g : Ghost (Vec D)} (hC : NoTracking C) (hG : ∀ i, C.G (pop i))
    {Q : (Fin N → Vec D) × (Fin N → Fl) → Ghost (Vec D) → Prop}
    (hQ : ∀ r g', (∀ i, C.F (r.1 i) (r.2 i)) → (∀ i, C.G (r.1 i)) → g'.c = g.c + N → Q r g') : (evalSort pop).wp C Q g := by
  simp only [evalSort, Prog.wp_bind']
  refine wp_evalRows (S := fun _ => True) hG hC.cov fun fit g' _ _ hf _ hn => ?_
  exact Yields.sortIdx.wp fun si _ => hQ _ _ (fun i => (hf (si i)).1) (fun i => hG (si i)) hn

/-- The obligations of monarch butterfly optimization: `2 N` evaluations per iteration. -/
theorem verified (B : Box D) (N : ℕ) (p : Par) : VerifiedIf NoTracking (alg B N p) B.Mem false true (.exact N (2 * N)) := by
  refine ⟨fun C s _ => ∀ i, C.F (s.pop i) (s.fit i) ∧ C.G (s.pop i), fun C hC hG hent _ =>
    AlgOK.toW ⟨fun s b h => forall₂_ofFn fun i => hC.fit (h i).1, fun g hg => ?_, ?_⟩⟩
  · simp only [alg, init, Prog.wp_bind']
    exact wp_initArr hG hg fun r g' _ h2 h3 h4 h5 => Yields.sortIdx.wp fun si _ => ⟨fun i => ⟨(h3 (si i)).1, hG _ (h2 (si i))⟩, hC.cov, h5⟩
  · intro s xb fxb g hI hF _
    have hent := hent rfl
    simp only [alg, iter, Prog.wp_bind', Prog.wp_look]
    intro v
    refine (migrate_quiet ..).wp fun p1 _ => (Yields.repairRows (Or.inr hent)).wp fun p1' h1 => (current_quiet ..).wp fun cur _ => ?_
    refine (adjust_quiet ..).wp fun p2 _ => (Yields.repairRows (Or.inr hent)).wp fun p2' h2 => ?_
    refine wp_evalSort hC h2 fun r3 g3 _ h3 hn3 => row_quiet'.wp fun cur' _ => ?_
    refine wp_evalSort hC (fun i => ?_) fun r4 g4 hf4 h4 hn4 => ?_
    · unfold elitism
      split
      · exact (hI _).2
      · exact h3 i
    · exact wp_getBest_arr (fun i => hC.fit (hf4 i)) (hC.fit hF) hC.cov fun b hb =>
        ⟨fun i => ⟨hf4 i, h4 i⟩, hb.fit, hb.eq, Cost.ok_exact (by rw [hn4, hn3]; omega)⟩

theorem dominates (B : Box D) (N : ℕ) (p : Par) : Dominates (alg B N p) := by
  intro env s xb fxb
  refine .bind' .any fun v _ => .bind' .any fun p1 _ => .bind' .any fun p1 _ => .bind' .any fun cur _ => .bind' .any fun p2 _ =>
    .bind' .any fun p2 _ => .bind' .any fun r3 _ => .bind' .any fun cur _ => .bind' .any fun r4 _ => .bind' Post.getBest fun b hb =>
    .pure' ⟨hb.1, fun hx hn f hf => ?_⟩
  obtain ⟨i, rfl⟩ := mem_ofFn_iff.1 hf
  exact hb.2 hx (fun i => hn _ (mem_ofFn_iff.2 ⟨i, rfl⟩)) i

/-! ### C58 and C59 -/

namespace Ex
open NiaPy.Ex

/-- Some streams of numbers. -/
def draws : Draws where
  rand k := (k * 7 % 11 : ℕ) / 11
  unif k := if k < 40 then (k * 5 % 13 : ℕ) / 4 - 3 / 2 else (k % 7 : ℕ) / 7
  int k := k

/-- One iteration on the sphere. -/
def env (D : ℕ) (me : Option ℕ) : Env (Vec D) := NiaPy.Ex.env sphere .minimization me (some 1) none draws fun _ _ x i => clip1 (x i)

/-- Three of six butterflies in the first subpopulation. -/
def par : Par := ⟨lit 5 12, lit 12 10, 3⟩

end Ex

omit [Arith] in
/-- C58 is false of monarch butterfly optimization: with six butterflies and twelve evaluations the first evaluation of the first
iteration finds 5/16; the second one is beyond the budget; the run returns 13/16. -/
theorem C58_mbo_false : ∃ env : Env (Vec 2), NoNaN env ∧ (@alg NiaPy.Ex.arith 2 (NiaPy.Ex.box 2) 6 Ex.par).LosesBest env :=
  ⟨Ex.env 2 (some 12), NiaPy.Ex.sphere_noNaN rfl, .of (fuel := 5) (f := .fin (13 / 16)) (b := .fin (5 / 16)) (by decide +kernel) (by decide +kernel)⟩

omit [Arith] in
/-- C59 is false: in one dimension a run of monarch butterfly optimization ends with `IndexError`. -/
theorem C59_mbo_false : ((@alg NiaPy.Ex.arith 1 (NiaPy.Ex.box 1) 6 Ex.par).exec (Ex.env 1 none) true 0 5).1 = .error .indexError := by
  have h : (match ((@alg NiaPy.Ex.arith 1 (NiaPy.Ex.box 1) 6 Ex.par).exec (Ex.env 1 none) true 0 5).1 with
    | .error .indexError => true | _ => false) = true := by decide +kernel
  split at h
  · assumption
  · cases h

/-- C59, why: in one dimension an entry of the result of the adjusting operator can only be that of the best solution; the other
branch never returns, whatever the random numbers. -/
theorem C59_adjust_false (p : Par) (env : Env (Vec 1)) (pop : Fin N → Vec 1) (scale : Fl) (dx best : Vec 1) (j : Fin 1) :
    Post env (adjust1 p pop scale dx best j) fun y => y = best j := by
  refine .bind' (.yields Yields.unif.quiet) fun u _ => ?_
  by_cases h : p.partition ≤ u
  · rw [if_pos h]; exact .pure' rfl
  · rw [if_neg h]
    refine .bind' .any fun k _ => .bind' .any fun y _ => .bind' (P := fun _ => False) (.yields ?_) fun _ h => h.elim
    unfold second
    rw [dif_neg (by omega)]
    exact .throw nofun

/-- C59, the other part: in two or more dimensions every entry of the result is that of the best solution or comes from coordinate
1 (not `j`) of a butterfly of the second subpopulation. -/
theorem C59_coordinate_false (hD : 1 < D) (p : Par) (env : Env (Vec D)) (pop : Fin N → Vec D) (scale : Fl) (dx best : Vec D) (j : Fin D) :
    Post env (adjust1 p pop scale dx best j) fun y => y = best j ∨ ∃ i : Fin N, p.np1 ≤ i.1 ∧
      (y = pop i ⟨1, hD⟩ ∨ y = pop i ⟨1, hD⟩ + scale * (dx j - lit 1 2)) := by
  refine .bind' (.yields Yields.unif.quiet) fun u _ => ?_
  by_cases h : p.partition ≤ u
  · rw [if_pos h]; exact .pure' (Or.inl rfl)
  · rw [if_neg h]
    refine .bind' .any fun k _ => .bind' (P := fun y => ∃ i : Fin N, p.np1 ≤ i.1 ∧ y = pop i) (.yields ?_) fun y hy => ?_
    · unfold row
      split
      · exact .pure' ⟨_, Nat.le_add_right _ _, rfl⟩
      · exact .throw nofun
    obtain ⟨i, hi, rfl⟩ := hy
    refine .bind' (P := fun z => z = pop i ⟨1, hD⟩) (.yields ?_) fun z hz => .bind' .any fun u' _ => .pure' (Or.inr ⟨i, hi, ?_⟩)
    · unfold second
      rw [dif_pos hD]
      exact .pure' rfl
    · subst hz
      split
      · exact Or.inr rfl
      · exact Or.inl rfl

example : ∃ hist w, (@alg NiaPy.Ex.arith 2 (NiaPy.Ex.box 2) 6 Ex.par).Trace (Ex.env 2 none) 1 hist w ∧ hist.length = 2 := by
  letI := NiaPy.Ex.arith
  exact (verified (NiaPy.Ex.box 2) 6 Ex.par).exists_trace (Ex.env 2 none) (metBy_noTracking _) (fuel := 5) (by decide +kernel)

end NiaPy.MBO
