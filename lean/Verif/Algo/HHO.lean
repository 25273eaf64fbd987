import Mathlib.Tactic.Ring
import Mathlib.Tactic.FieldSimp
import Mathlib.Tactic.Positivity
import Mathlib.Tactic.Linarith
import Verif.Loose
import Verif.Runs

/-!
# Harris hawks optimization (`niapy/algorithms/basic/hho.py`)

The dives of a hawk (hho.py:145-164) evaluate up to two candidates; a better one is taken over, but then evaluated again
(hho.py:168). If the budget ends in between, the second evaluation gives infinity and the better candidate is lost.
-/

namespace NiaPy.HHO
open NiaPy
variable [Arith] {D N : ℕ}

/-- State of a run. -/
structure St (D N : ℕ) where
  pop : Fin N → Vec D
  fit : Fin N → Fl

/-- `Algorithm.init_population` with the default initialization (algorithm.py:246-264). -/
def init (B : Box D) (N : ℕ) : Prog (Vec D) (St D N) := do
  let (pop, fit) ← defaultNumpyInit B N
  return ⟨pop, fit⟩

/-- `np.mean(population)` (hho.py:117): the mean of all coordinates of all individuals, a single number. -/
def mean (pop : Fin N → Vec D) : Fl := (vsum fun i => vsum (pop i)) / Fl.ofNat (N * D)

/-- A dive (hho.py:147-154 and 157-164): the candidate `y` and a Lévy flight from it; returns the new position. -/
def dive (levy : Fl) (y x : Vec D) (f : Fl) : Prog (Vec D) (Vec D) := do
  let c1 ← Prog.repair y
  let r ← randVec D
  let l ← levyVec D levy
  let c2 ← Prog.repair fun j => c1 j + r j * l j
  let f1 ← Prog.eval c1
  if f1 < f then return c1
  else do
    let f2 ← Prog.eval c2
    return if f2 < f then c2 else x

/-- The new position of hawk `i` before it is repaired (hho.py:120-164); `e0` is `decreasing_energy_factor`. -/
def move (B : Box D) (levy e0 m : Fl) (s : St D N) (i : Fin N) (xb : Vec D) : Prog (Vec D) (Vec D) := do
  let jump ← Prog.unif 0 (Fl.ofNat 2)
  let u ← Prog.unif (-1) 1
  let e := e0 * u
  let ea := Fl.abs e
  let r ← Prog.rand
  if 1 ≤ e ∧ lit 1 2 ≤ r then do
    let k ← intFin N
    let r1 ← Prog.rand
    let r2 ← Prog.rand
    return fun j => s.pop k j - r1 * Fl.abs (s.pop k j - Fl.ofNat 2 * r2 * s.pop i j)
  else if 1 ≤ ea ∧ r < lit 1 2 then do
    let r1 ← Prog.rand
    let z ← unifVec B.lo B.hi
    return fun j => (xb j - m) - r1 * z j
  else if lit 1 2 ≤ ea ∧ lit 1 2 ≤ r then
    return fun j => (xb j - s.pop i j) - e * Fl.abs (jump * xb j - s.pop i j)
  else if ea < lit 1 2 ∧ lit 1 2 ≤ r then
    return fun j => xb j - e * Fl.abs (xb j - s.pop i j)
  else if lit 1 2 ≤ ea ∧ r < lit 1 2 then
    dive levy (fun j => xb j - e * Fl.abs (jump * xb j - s.pop i j)) (s.pop i) (s.fit i)
  else if ea < lit 1 2 ∧ r < lit 1 2 then
    dive levy (fun j => xb j - e * Fl.abs (jump * xb j - m)) (s.pop i) (s.fit i)
  else return s.pop i

/-- The body of the loop over the hawks (hho.py:120-168). -/
def step (B : Box D) (levy e0 m : Fl) (xb : Vec D) (i : Fin N) (s : St D N) : Prog (Vec D) (St D N) := do
  let y ← move B levy e0 m s i xb
  let x ← Prog.repair y
  let f ← Prog.eval x
  return ⟨Function.update s.pop i x, Function.update s.fit i f⟩

/-- `decreasing_energy_factor` (hho.py:116) -/
def energy (v : TaskView) : Fl := Fl.ofNat 2 * (1 - Fl.ofNat (v.iters + 1) / limF v.maxIters)

/-- `run_iteration` (hho.py:96-176). -/
def iter (B : Box D) (levy : Fl) (s : St D N) (xb : Vec D) (fxb : Fl) : Prog (Vec D) (St D N × Vec D × Fl) := do
  let v ← Prog.look
  let s' ← forFin N (step B levy (energy v) (mean s.pop) xb) s
  let b ← takeMin s'.pop s'.fit xb fxb
  return (s', b)

/-- Harris hawks optimization with population size `N` (hho.py). -/
def alg (B : Box D) (N : ℕ) (levy : Fl) : Alg (Vec D) where
  σ := St D N
  init := init B N
  pop s := List.ofFn s.pop
  fit s := List.ofFn s.fit
  iter := iter B levy

variable {C : Ctx (Vec D)} {g : Ghost (Vec D)}

theorem dive_few (levy : Fl) (y x : Vec D) (f : Fl) : Few C 2 (dive levy y x f) := by
  refine ⟨fun g => ?_⟩
  simp only [dive, Prog.wp_bind']
  refine Yields.repair.wp fun c1 h1 => Yields.randVec.quiet.wp fun r _ => Yields.levyVec.wp fun l _ => Yields.repair.wp fun c2 h2 => ?_
  rw [Prog.wp_eval]
  refine ⟨h1, fun v1 _ => ?_⟩
  split
  · exact ⟨Nat.le_succ _, Nat.le_succ _⟩
  · simp only [Prog.wp_bind', Prog.wp_eval]
    exact ⟨h2, fun v2 _ => ⟨by simp only [Ghost.eval]; omega, le_rfl⟩⟩

theorem move_few (B : Box D) (levy e0 m : Fl) (s : St D N) (i : Fin N) (xb : Vec D) : Few C 2 (move B levy e0 m s i xb) := by
  unfold move
  refine .bindQ Yields.unif.quiet fun jump _ => .bindQ Yields.unif.quiet fun u _ => .bindQ Yields.rand.quiet fun r _ => ?_
  exact .ite (.of (by yields)) (.ite (.of (by yields)) (.ite (.of (by yields)) (.ite (.of (by yields))
    (.ite (dive_few ..) (.ite (dive_few ..) (.of (by yields)))))))

/-- The obligations of Harris hawks optimization: between `N` and `3 N` evaluations per iteration. -/
theorem verified (B : Box D) (N : ℕ) (levy : Fl) : VerifiedIf NoTracking (alg B N levy) B.Mem true true ⟨N, N, some (3 * N)⟩ := by
  refine ⟨fun C s _ => ∀ i, C.F (s.pop i) (s.fit i), fun C hC hG _ _ => AlgOK.toW ⟨fun s b h => forall₂_ofFn fun i => hC.fit (h i), fun g hg => ?_, ?_⟩⟩
  · simp only [alg, init, Prog.wp_bind']
    exact wp_initArr hG hg fun r g' _ _ h3 h4 h5 => ⟨fun i => (h3 i).1, h4, h5⟩
  · intro s xb fxb g hI hF _
    simp only [alg, iter, Prog.wp_bind', Prog.wp_look]
    intro v
    refine Prog.wp_mono (fun s' g' h => ?_) (wp_forFin (fun k (s : St D N) (g' : Ghost (Vec D)) => (∀ i, C.F (s.pop i) (s.fit i)) ∧
      g.c + k ≤ g'.c ∧ g'.c ≤ g.c + 3 * k) ⟨hI, le_rfl, le_rfl⟩ fun i s g' h => ?_)
    · exact wp_takeMin h.1 hF fun b hb => ⟨h.1, hb, hC.eq, h.2.1, fun h' he => by cases he; exact h.2.2⟩
    · obtain ⟨h1, h2, h3⟩ := h
      simp only [step, Prog.wp_bind']
      refine Prog.wp_mono (fun y g'' h => ?_) ((move_few B levy _ _ s i xb).out g')
      refine Yields.repair.wp fun x hx => ?_
      rw [Prog.wp_eval]
      refine ⟨hx, fun f hf => ⟨fun j => ?_, ?_, ?_⟩⟩
      · by_cases hj : j = i
        · subst hj; simpa using hf
        · simpa [hj] using h1 j
      · simp only [Ghost.eval]; omega
      · simp only [Ghost.eval]; omega

theorem dominates (B : Box D) (N : ℕ) (levy : Fl) : Dominates (alg B N levy) := by
  intro env s xb fxb
  refine .bind' .any fun v _ => .bind' .any fun s' _ => .bind' Post.takeMin fun b hb => .pure' ⟨hb.1, fun hx hn f hf => ?_⟩
  obtain ⟨i, rfl⟩ := mem_ofFn_iff.1 hf
  exact hb.2 hx (fun i => hn _ (mem_ofFn_iff.2 ⟨i, rfl⟩)) i

/-! ### C58 -/

namespace Ex
open NiaPy.Ex

/-- The numbers drawn: the hawk starts at 1 and dives. -/
def draws : Draws where
  unif k := if k = 0 then 1 else if k = 1 then 0 else 1 / 4

/-- Two evaluations. -/
def env : Env (Vec 1) := NiaPy.Ex.env sphere .minimization (some 2) none none draws fun _ _ x i => clip1 (x i)

end Ex

omit [Arith] in
/-- C58 is false of Harris hawks optimization: with one hawk and two evaluations, the second evaluation finds the value 1/4; the run
returns 1. -/
theorem C58_hho_false : ∃ env : Env (Vec 1), NoNaN env ∧ (@alg NiaPy.Ex.arith 1 (NiaPy.Ex.box 1) 1 (.fin 1)).LosesBest env :=
  ⟨Ex.env, NiaPy.Ex.sphere_noNaN rfl, .of (fuel := 5) (f := .fin 1) (b := .fin (1 / 4)) (by decide +kernel) (by simp)⟩

example : ∃ hist w, (@alg NiaPy.Ex.arith 1 (NiaPy.Ex.box 1) 3 (.fin 1)).Trace NiaPy.Ex.env2 1 hist w ∧ hist.length = 3 := by
  letI := NiaPy.Ex.arith
  exact (verified (NiaPy.Ex.box 1) 3 (.fin 1)).exists_trace NiaPy.Ex.env2 (metBy_noTracking _) (fuel := 5) (by decide +kernel)

/-! ## C92: the energy factor -/

omit [Arith] in
/-- **C92.** In iteration `t` of `T` (counted from 0) the energy factor is `2 (1 - (t + 1) / T)`: at least 0, below 2, falling, and 0 in the last one. -/
theorem C92_hho (fn : Fn → Fl → Fl) (v : TaskView) (T : ℕ) (hT : v.maxIters = some T) (hlt : v.iters < T) :
    letI := exactArith fn
    energy v = .fin (2 * (1 - (v.iters + 1) / T)) ∧ .fin 0 ≤ energy v ∧ energy v < .fin 2 ∧ (v.iters + 1 = T → energy v = .fin 0) ∧
      ∀ v' : TaskView, v'.maxIters = some T → v.iters < v'.iters → energy v' < energy v := by
  have hpos : 0 < T := by omega
  have hT' : (0 : ℚ) < T := by exact_mod_cast hpos
  have key : ∀ u : TaskView, u.maxIters = some T → @energy (exactArith fn) u = .fin (2 * (1 - (u.iters + 1) / T)) := fun u hu => by
    unfold energy
    rw [hu]
    simp only [Exact.ofNat_fin, Exact.one_fin, Exact.div_some fn _ hpos, Exact.mul_fin, Exact.sub_fin, Fl.fin.injEq]
    push_cast
    ring
  refine ⟨key v hT, ?_, ?_, fun h => ?_, fun v' h' hlt' => ?_⟩
  · rw [key v hT, Fl.fin_le_fin]
    have : ((v.iters : ℚ) + 1) / T ≤ 1 := (div_le_one hT').2 (by exact_mod_cast hlt)
    linarith
  · rw [key v hT, Fl.fin_lt_fin]
    have : (0 : ℚ) < ((v.iters : ℚ) + 1) / T := by positivity
    linarith
  · have h1 : ((v.iters : ℚ) + 1) / T = 1 := by rw [← h]; push_cast; exact div_self (by positivity)
    rw [key v hT, h1, sub_self, mul_zero]
  · rw [key v hT, key v' h', Fl.fin_lt_fin]
    have : ((v.iters : ℚ) + 1) / T < (v'.iters + 1) / T := (div_lt_div_iff_of_pos_right hT').2 (by exact_mod_cast Nat.succ_lt_succ hlt')
    linarith

omit [Arith] in
/-- **C92 fails without that limit**: with a limit on the evaluations only the energy factor is 2 throughout. -/
theorem C92_hho_false (fn : Fn → Fl → Fl) (v : TaskView) (hT : v.maxIters = none) : letI := exactArith fn; energy v = .fin 2 := by
  unfold energy
  rw [hT]
  simp only [Exact.ofNat_fin, Exact.one_fin, Exact.div_none, Exact.mul_fin, Exact.sub_fin, Fl.fin.injEq]
  push_cast
  ring

example : letI := NiaPy.Ex.arith; energy ⟨4, 30, some 10, none, false⟩ = .fin 1 := by decide +kernel

end NiaPy.HHO
