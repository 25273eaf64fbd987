import Verif.Congr
import Verif.Ranges
import Verif.TaskProps
import Verif.Example
import Verif.Algo.SA
import Verif.Algo.HC
import Verif.Algo.RS
import Verif.Algo.ES
import Verif.Algo.HS
import Verif.Algo.GWO
import Verif.Algo.GA
import Verif.Algo.FSS

/-!
# The type of the numbers an objective function returns (C107)

`task.eval` multiplies what the objective function returns with `1.0` or `-1.0`, and `get_best` looks at the type of the product. Everywhere
else numbers are just values. Here they carry their type.
-/

namespace NiaPy
variable {X α : Type}

/-- The types of numbers an objective function may return. -/
inductive NumType where
  | bool | int | float
  | npBool | npInt
  | float16 | float32 | float64 | longdouble
  deriving DecidableEq

/-- The type of `v * 1.0` (task.py:29-30, 145): Python numbers become `float`, the integers of NumPy `float64`, and floating point scalars of
NumPy keep their type (NumPy 2). -/
def NumType.timesFloat : NumType → NumType
  | .bool | .int | .float => .float
  | .npBool | .npInt => .float64
  | t => t

/-- `isinstance(v, (float, int))`: `np.float64` is a subclass of `float` and `bool` one of `int`, the other types of NumPy are not. -/
def NumType.isNumber : NumType → Bool
  | .bool | .int | .float | .float64 => true
  | _ => false

/-- The type of what `task.eval` returns (task.py:131-154): `np.inf`, a `float`, once the task has stopped. -/
def NumType.evaluated (t : NumType) (stopped : Bool) : NumType := if stopped then .float else t.timesFloat

/-- Single precision, half precision and extended precision. -/
def NumType.exotic (t : NumType) : Bool := t = .float16 || t = .float32 || t = .longdouble

/-- `task.eval` with the type of the result, for an objective function returning `t`. -/
def evalT (t : NumType) (x : X) : Prog X (NumType × Fl) := do
  let v ← Prog.look
  let f ← Prog.eval x
  return (t.evaluated v.stopped, f)

/-- The first two arguments of `get_best`: one individual with one number, or arrays. -/
inductive BestArg (X : Type) where
  | one (x : X) (t : NumType) (f : Fl)
  | many (pop : List X) (fit : List Fl)

/-- `Algorithm.get_best` (algorithm.py:223-244) with both tests of types. `np.argmin` of a number is `0`. -/
def getBestT : BestArg X → Option X → Fl → Except PyErr (X × Fl)
  | .one x t f, bestX, bestF =>
    if t.isNumber ∧ f ≤ bestF then .ok (x, f)
    else match bestX with
      | none => .error .attributeError
      | some y => .ok (y, bestF)
  | .many pop fit, bestX, bestF => getBest pop fit bestX bestF

theorem NumType.evaluated_number (t : NumType) (s : Bool) : (t.evaluated s).isNumber = (s || !t.exotic) := by
  cases t <;> cases s <;> rfl

/-- C107, `get_best`: with arrays the type of the numbers does not matter, and a single number of any of the other types, as `task.eval`
returns it, is compared with the best one so far. -/
theorem C107_get_best_partial (pop : List X) (fit : List Fl) (bx : Option X) (x xb : X) (f fxb : Fl) {t : NumType} (ht : t.exotic = false) (s : Bool) :
    getBestT (.many pop fit) bx fxb = getBest pop fit bx fxb ∧
    getBestT (.one x (t.evaluated s) f) (some xb) fxb = .ok (getBest1 x f xb fxb) ∧
    getBestT (.one x (t.evaluated s) f) none fxb = getBest [x] [f] none fxb := by
  refine ⟨rfl, ?_, ?_⟩
  · simp only [getBestT, NumType.evaluated_number, ht, Bool.not_false, Bool.or_true, true_and, getBest1]
    split <;> rfl
  · simp only [getBestT, NumType.evaluated_number, ht, Bool.not_false, Bool.or_true, true_and, getBest, argmin, argminGo,
      List.getElem?_cons_zero]

/-- C107 is false of `get_best`: a single number of half, single or extended precision is never better, however small it is; and without a
best solution so far `get_best` raises `AttributeError`. -/
theorem C107_get_best_false (x : X) (f fxb : Fl) (bx : Option X) {t : NumType} (ht : t.exotic = true) :
    getBestT (.one x (t.evaluated false) f) bx fxb = match bx with | none => .error .attributeError | some xb => .ok (xb, fxb) := by
  simp only [getBestT, NumType.evaluated_number, ht, Bool.not_true, Bool.or_false, Bool.false_eq_true, false_and, if_false]

example : NumType.float32.exotic = true ∧ NumType.float64.exotic = false ∧ NumType.int.exotic = false ∧ NumType.npInt.exotic = false := by
  decide

/-! ### Algorithms that start with a single solution -/

/-- The initialization on an objective function that returns `t`, for algorithms whose `init_population` returns one evaluated solution and its
fitness: `Algorithm.run` passes both to `get_best` without a best solution so far (algorithm.py:310-311). The evaluation is the only
one in `init_population`, so whether the task has stopped is the same when it starts. An iteration takes place only if that call returned. -/
def Alg.initT (A : Alg X) (t : NumType) : Prog X A.σ := do
  let v ← Prog.look
  let s ← A.init
  match A.pop s, A.fit s with
  | x :: _, f :: _ => do
    let _ ← Prog.ofExcept (getBestT (.one x (t.evaluated v.stopped) f) none .pinf)
    return s
  | _, _ => return s

/-- The algorithm with this initialization. -/
def Alg.single (A : Alg X) (t : NumType) : Alg X := { A with init := A.initT t }

variable {A : Alg X} {env : Env X} {t : NumType}

/-- The part of `init_population` after the look at the task. -/
theorem Alg.single_init_run (h : stoppingCondition env.toTaskCfg (TaskSt.init env.opt) = false) {w : World X} (hw : w.st = TaskSt.init env.opt)
    (hp : ∀ s, A.pop s ≠ []) (hf : ∀ s, A.fit s ≠ []) (ht : t.exotic = true) :
    (A.single t).init.run env w = match A.init.run env w with
      | (.ok _, w') => (.error .attributeError, w')
      | (.error e, w') => (.error e, w') := by
  simp only [Alg.single, Alg.initT, Prog.bind_def, Prog.run_bind, Prog.run_look, hw, h]
  rcases A.init.run env w with ⟨e | s, w'⟩
  · rfl
  · simp only
    rcases h1 : A.pop s with - | ⟨x, l⟩
    · exact absurd h1 (hp s)
    rcases h2 : A.fit s with - | ⟨f, l'⟩
    · exact absurd h2 (hf s)
    simp only [C107_get_best_false x f .pinf none ht, Prog.ofExcept]
    rfl

/-- C107 is false of every algorithm that starts with a single solution: on a task that has not stopped at the start, no run gets as far as
the loop, and no run returns a solution; if the initial solution can be evaluated, the run ends with `AttributeError`. -/
theorem C107_start_false (hp : ∀ s, A.pop s ≠ []) (hf : ∀ s, A.fit s ≠ []) (ht : t.exotic = true)
    (h : stoppingCondition env.toTaskCfg (TaskSt.init env.opt) = false) :
    (∀ ncb hist w, ¬ (A.single t).Trace env ncb hist w) ∧
    (∀ main ncb fuel res, ((A.single t).exec env main ncb fuel).1 ≠ .ok ⟨some res, none⟩) ∧
    ∀ s w fuel, A.init.run env (World.init env.opt) = (.ok s, w) → ((A.single t).exec env true 0 fuel).1 = .error .attributeError := by
  have no : ∀ ncb hist w, ¬ (A.single t).Trace env ncb hist w := by
    intro ncb hist w ht'
    induction ht' with
    | start hr =>
      obtain ⟨w1, h1, h2, -⟩ := start_init hr
      rw [Alg.single_init_run h h2 hp hf ht] at h1
      split at h1 <;> cases h1
    | round _ _ _ ih => exact ih
  refine ⟨no, fun main ncb fuel res hr => ?_, fun s w fuel hi => ?_⟩
  · rw [exec_eq] at hr
    simp only at hr
    cases hb : ((A.single t).execBody env ncb fuel).1 with
    | error e => rw [hb] at hr; simp only at hr; split at hr <;> cases hr
    | ok r =>
      obtain ⟨hist, w, ht', -⟩ := body_trace hb
      exact no _ _ _ ht'
  · have hb : (A.single t).execBody env 0 fuel = (.error .attributeError, w) := by
      have h0 := Alg.single_init_run (A := A) (t := t) h (w := World.init env.opt) rfl hp hf ht
      rw [hi] at h0
      simp only [Alg.execBody, Alg.body, Prog.bind_def, Prog.run_bind, fireAll, List.range_zero, forList, Prog.run_pure]
      rw [h0]
    rw [exec_eq, hb]
    rfl

theorem Alg.single_loop (ncb fuel : ℕ) (s : A.σ) (xb : X) (fxb : Fl) : (A.single t).loop ncb fuel s xb fxb = A.loop ncb fuel s xb fxb := by
  induction fuel generalizing s xb fxb with
  | zero => rfl
  | succ n ih =>
    unfold Alg.loop
    simp only [Prog.bind_def]
    refine congrArg (Prog.bind Prog.look) (funext fun v => ?_)
    split
    · rfl
    · refine congrArg (Prog.bind _) (funext fun _ => congrArg (Prog.bind _) (funext fun r => congrArg (Prog.bind _) (funext fun _ =>
        congrArg (Prog.bind _) (funext fun _ => ih _ _ _))))

/-- C107 holds of these algorithms with every other type: nothing changes. -/
theorem C107_start_partial (hp : ∀ s, ∃ x, A.pop s = [x]) (hf : ∀ s, ∃ f, A.fit s = [f]) (ht : t.exotic = false) (main : Bool) (ncb fuel : ℕ) :
    (A.single t).exec env main ncb fuel = A.exec env main ncb fuel := by
  have hi : ∀ {β : Type} (K : A.σ → X × Fl → Prog X β), Same env
      ((A.initT t).bind fun s => (Prog.ofExcept (getBest (A.pop s) (A.fit s) none .pinf)).bind (K s))
      (A.init.bind fun s => (Prog.ofExcept (getBest (A.pop s) (A.fit s) none .pinf)).bind (K s)) := by
    intro β K w
    simp only [Alg.initT, Prog.bind_def, Prog.run_bind, Prog.run_look]
    rcases A.init.run env w with ⟨e | s, w2⟩
    · rfl
    obtain ⟨x, hx⟩ := hp s
    obtain ⟨f, hf'⟩ := hf s
    simp only [hx, hf', (C107_get_best_partial [] [] none x x f .pinf ht _).2.2]
    rcases h : getBest [x] [f] none .pinf with e | b
    · rfl
    · simp only [Prog.ofExcept, Prog.pure_def, Prog.run_bind, Prog.run_pure, hx, hf', h]
  have hb : Same env ((A.single t).body ncb fuel : Prog X (A.σ × X × Fl)) (A.body ncb fuel) := by
    unfold Alg.body
    refine .bind' .any fun _ _ => ?_
    have hK : (fun (s : A.σ) (b : X × Fl) => Prog.bind ((A.single t).loop ncb fuel s b.1 b.2 : Prog X (A.σ × X × Fl)) fun r =>
        (fireAll ncb .afterRun).bind fun _ => .pure r) =
        fun s b => Prog.bind (A.loop ncb fuel s b.1 b.2) fun r => (fireAll ncb .afterRun).bind fun _ => .pure r :=
      funext fun s => funext fun b => congrArg (fun p => Prog.bind p _) (Alg.single_loop ncb fuel s b.1 b.2)
    exact Same.trans (hi fun (s : A.σ) (b : X × Fl) => Prog.bind ((A.single t).loop ncb fuel s b.1 b.2 : Prog X (A.σ × X × Fl)) fun r =>
        (fireAll ncb .afterRun).bind fun _ => .pure r) 
      (.of_eq (congrArg (fun K : A.σ → X × Fl → Prog X (A.σ × X × Fl) => A.init.bind fun s =>
        (Prog.ofExcept (getBest (A.pop s) (A.fit s) none .pinf)).bind (K s)) hK))
  have hb' : (A.single t).execBody env ncb fuel = A.execBody env ncb fuel := hb _
  rw [exec_eq, exec_eq, hb']
  rcases A.execBody env ncb fuel with ⟨r | e, w⟩ <;> rfl

/-! ### Algorithms that compare one new solution with the best one -/

/-- The incumbent is as it was, up to the position of solutions that are infinitely bad. -/
def Unmoved (r r' : X × Fl) : Prop := r'.2 = r.2 ∧ (r.2 ≠ .pinf → r'.1 = r.1)

theorem Unmoved.refl (r : X × Fl) : Unmoved r r := ⟨rfl, fun _ => rfl⟩

theorem Unmoved.trans {r r' r'' : X × Fl} (h : Unmoved r r') (h' : Unmoved r' r'') : Unmoved r r'' :=
  ⟨h'.1.trans h.1, fun hn => (h'.2 (by rw [h.1]; exact hn)).trans (h.2 hn)⟩

/-- A number that `task.eval` returned on such an objective function. -/
def Numbered (r : NumType × Fl) : Prop := r.1.isNumber = true → r.2 = .pinf

theorem evalT_numbered (ht : t.exotic = true) (x : X) : Post env (evalT t x) Numbered := by
  intro w w' r hr hn
  simp only [evalT, Prog.bind_def, Prog.run_bind, Prog.run_look, Prog.run_eval] at hr
  cases hs : stoppingCondition env.toTaskCfg w.st with
  | true =>
    rw [hs] at hr
    have he := C02_eval_stopped env w hs x
    rw [Prog.run_eval] at he
    rw [he] at hr
    cases hr
    rfl
  | false =>
    rw [hs] at hr
    split at hr
    · cases hr
      rw [NumType.evaluated_number, ht] at hn
      cases hn
    · cases hr

theorem getBestT_stuck {x xb : X} {f fxb : Fl} {s : NumType} (h : Numbered (s, f)) {r : X × Fl} (hr : getBestT (.one x s f) (some xb) fxb = .ok r) :
    Unmoved (xb, fxb) r := by
  simp only [getBestT] at hr
  split at hr
  · rename_i h'
    cases hr
    have hf : f = .pinf := h h'.1
    have : fxb = .pinf := by
      have := h'.2
      rw [hf] at this
      cases fxb <;> first | rfl | exact absurd this (by decide) | exact absurd this (Fl.not_pinf_le_fin _)
    exact ⟨hf.trans this.symm, fun hn => absurd this hn⟩
  · cases hr
    exact .refl _

/-- If no iteration improves the incumbent, it stays the one of the initial population through the whole run. -/
theorem Alg.unmoved (h : ∀ s xb fxb, Post env (A.iter s xb fxb) fun r => Unmoved (xb, fxb) r.2) :
    (∀ ncb hist w, A.Trace env ncb hist w → ∃ r₀ w₀, A.Trace env ncb [r₀] w₀ ∧ ∀ r ∈ hist, Unmoved r₀.2 r.2) ∧
    ∀ main ncb fuel res, (A.exec env main ncb fuel).1 = .ok ⟨some res, none⟩ → ∃ r₀ w₀, A.Trace env ncb [r₀] w₀ ∧
      res.2 = env.opt.mul r₀.2.2 ∧ (r₀.2.2 ≠ .pinf → res.1 = r₀.2.1) := by
  have key : ∀ ncb hist w, A.Trace env ncb hist w → ∃ r₀ w₀, A.Trace env ncb [r₀] w₀ ∧ ∀ r ∈ hist, Unmoved r₀.2 r.2 := by
    intro ncb hist w ht
    induction ht with
    | start hr => exact ⟨_, _, .start hr, fun r h => by rw [List.mem_singleton.1 h]; exact .refl _⟩
    | round _ _ hr ih =>
      obtain ⟨r₀, w₀, h0, h1⟩ := ih
      obtain ⟨w1, w2, hi, -⟩ := round_iter hr
      refine ⟨r₀, w₀, h0, fun r hm => ?_⟩
      rcases List.mem_cons.1 hm with rfl | hm
      · exact (h1 _ (List.mem_cons_self ..)).trans (h _ _ _ _ _ _ hi)
      · exact h1 r hm
  refine ⟨key, fun main ncb fuel res hr => ?_⟩
  rw [exec_eq] at hr
  simp only at hr
  cases hb : (A.execBody env ncb fuel).1 with
  | error e => rw [hb] at hr; simp only at hr; split at hr <;> cases hr
  | ok r =>
    rw [hb] at hr
    cases hr
    obtain ⟨hist, w, ht, -⟩ := body_trace hb
    obtain ⟨r₀, w₀, h0, h1⟩ := key _ _ _ ht
    have := h1 r (List.mem_cons_self ..)
    exact ⟨r₀, w₀, h0, by simp only; rw [this.1], this.2⟩

theorem evalT_same (ht : t.exotic = false) (x : X) {β : Type} {f : NumType × Fl → Prog X β} {g : Fl → Prog X β}
    (h : ∀ (s : Bool) v, Same env (f (t.evaluated s, v)) (g v)) : Same env (evalT t x >>= f) (Prog.eval x >>= g) := by
  intro w
  simp only [evalT, Prog.bind_def, Prog.run_bind, Prog.run_look]
  rcases (Prog.eval x).run env w with ⟨e | v, w'⟩
  · rfl
  · exact h _ v w'

end NiaPy

namespace NiaPy.SA
open NiaPy
variable [Arith] {D : ℕ} (B : Box D) (p : Par) {env : Env (Vec D)} {t : NumType}

/-- C107 is false of simulated annealing. -/
theorem C107_sa_false (ht : t.exotic = true) (h : stoppingCondition env.toTaskCfg (TaskSt.init env.opt) = false) :
    (∀ ncb hist w, ¬ ((alg B p).single t).Trace env ncb hist w) ∧
    (∀ main ncb fuel res, (((alg B p).single t).exec env main ncb fuel).1 ≠ .ok ⟨some res, none⟩) ∧
    ∀ s w fuel, (alg B p).init.run env (World.init env.opt) = (.ok s, w) → (((alg B p).single t).exec env true 0 fuel).1 = .error .attributeError :=
  C107_start_false (fun _ => List.cons_ne_nil _ _) (fun _ => List.cons_ne_nil _ _) ht h

/-- C107 holds of simulated annealing for every other type. -/
theorem C107_sa_partial (ht : t.exotic = false) (main : Bool) (ncb fuel : ℕ) :
    ((alg B p).single t).exec env main ncb fuel = (alg B p).exec env main ncb fuel :=
  C107_start_partial (fun _ => ⟨_, rfl⟩) (fun _ => ⟨_, rfl⟩) ht main ncb fuel

end NiaPy.SA

namespace NiaPy.HC
open NiaPy
variable [Arith] {D : ℕ} (B : Box D) (delta : Fl) (n : ℕ) {env : Env (Vec D)} {t : NumType}

/-- C107 is false of hill climbing. -/
theorem C107_hc_false (ht : t.exotic = true) (h : stoppingCondition env.toTaskCfg (TaskSt.init env.opt) = false) :
    (∀ ncb hist w, ¬ ((alg B delta n).single t).Trace env ncb hist w) ∧
    (∀ main ncb fuel res, (((alg B delta n).single t).exec env main ncb fuel).1 ≠ .ok ⟨some res, none⟩) ∧
    ∀ s w fuel, (alg B delta n).init.run env (World.init env.opt) = (.ok s, w) →
      (((alg B delta n).single t).exec env true 0 fuel).1 = .error .attributeError :=
  C107_start_false (fun _ => List.cons_ne_nil _ _) (fun _ => List.cons_ne_nil _ _) ht h

/-- C107 holds of hill climbing for every other type. -/
theorem C107_hc_partial (ht : t.exotic = false) (main : Bool) (ncb fuel : ℕ) :
    ((alg B delta n).single t).exec env main ncb fuel = (alg B delta n).exec env main ncb fuel :=
  C107_start_partial (fun _ => ⟨_, rfl⟩) (fun _ => ⟨_, rfl⟩) ht main ncb fuel

end NiaPy.HC

namespace NiaPy.RS
open NiaPy
variable [Arith] {D : ℕ} (B : Box D) (n : ℕ) {env : Env (Vec D)} {t : NumType}

/-- C107 is false of random search. -/
theorem C107_rs_false (ht : t.exotic = true) (h : stoppingCondition env.toTaskCfg (TaskSt.init env.opt) = false) :
    (∀ ncb hist w, ¬ ((alg B n).single t).Trace env ncb hist w) ∧
    (∀ main ncb fuel res, (((alg B n).single t).exec env main ncb fuel).1 ≠ .ok ⟨some res, none⟩) ∧
    ∀ s w fuel, (alg B n).init.run env (World.init env.opt) = (.ok s, w) → (((alg B n).single t).exec env true 0 fuel).1 = .error .attributeError :=
  C107_start_false (fun _ => List.cons_ne_nil _ _) (fun _ => List.cons_ne_nil _ _) ht h

/-- C107 holds of random search for every other type. -/
theorem C107_rs_partial (ht : t.exotic = false) (main : Bool) (ncb fuel : ℕ) :
    ((alg B n).single t).exec env main ncb fuel = (alg B n).exec env main ncb fuel :=
  C107_start_partial (fun _ => ⟨_, rfl⟩) (fun _ => ⟨_, rfl⟩) ht main ncb fuel

/-- Indeed: a run on the sphere function with single precision ends with `AttributeError`, and one with double precision returns. -/
example : stoppingCondition Ex.env.toTaskCfg (TaskSt.init Ex.env.opt) = false ∧
    (match (((@alg NiaPy.Ex.arith 1 (NiaPy.Ex.box 1) 5).single .float32).exec Ex.env true 0 5).1 with
      | .error .attributeError => true | _ => false) = true ∧
    (match (((@alg NiaPy.Ex.arith 1 (NiaPy.Ex.box 1) 5).single .float64).exec Ex.env true 0 5).1 with
      | .ok _ => true | _ => false) = true := by decide +kernel

end NiaPy.RS

namespace NiaPy.ES
open NiaPy
variable [Arith] {D : ℕ} (opt : OptType) (B : Box D) (p : Par) {env : Env (Vec D)} {t : NumType}

/-- C107 is false of ES(1+1) and ES(mu+1). -/
theorem C107_es_false (ht : t.exotic = true) (h : stoppingCondition env.toTaskCfg (TaskSt.init env.opt) = false) :
    (∀ ncb hist w, ¬ ((alg1 opt B p).single t).Trace env ncb hist w) ∧
    (∀ main ncb fuel res, (((alg1 opt B p).single t).exec env main ncb fuel).1 ≠ .ok ⟨some res, none⟩) ∧
    ∀ s w fuel, (alg1 opt B p).init.run env (World.init env.opt) = (.ok s, w) →
      (((alg1 opt B p).single t).exec env true 0 fuel).1 = .error .attributeError :=
  C107_start_false (fun _ => List.cons_ne_nil _ _) (fun _ => List.cons_ne_nil _ _) ht h

/-- C107 holds of ES(1+1) and ES(mu+1) for every other type. -/
theorem C107_es_partial (ht : t.exotic = false) (main : Bool) (ncb fuel : ℕ) :
    ((alg1 opt B p).single t).exec env main ncb fuel = (alg1 opt B p).exec env main ncb fuel :=
  C107_start_partial (fun _ => ⟨_, rfl⟩) (fun _ => ⟨_, rfl⟩) ht main ncb fuel

end NiaPy.ES

namespace NiaPy.HS
open NiaPy
variable [Arith] {D N : ℕ}

/-- `run_iteration` (hs.py:145-171) on an objective function that returns `t`. -/
def iterT (t : NumType) (B : Box D) (p : Par) (s : St D N) (xb : Vec D) (fxb : Fl) : Prog (Vec D) (St D N × Vec D × Fl) := do
  let h ← improvise B p s
  let h ← Prog.repair h
  let v ← evalT t h
  let iw ← argmaxIdx s.fit
  let s' : St D N := if v.2 ≤ s.fit iw then ⟨Function.update s.pop iw h, Function.update s.fit iw v.2⟩ else s
  let b ← Prog.ofExcept (getBestT (.one h v.1 v.2) (some xb) fxb)
  return (s', b)

/-- `HarmonySearch` and `HarmonySearchV1` on such a function. -/
def algT (t : NumType) (B : Box D) (N : ℕ) (p : Par) : Alg (Vec D) := { alg B N p with iter := iterT t B p }

variable (B : Box D) (p : Par) {env : Env (Vec D)} {t : NumType}

/-- C107 is false of harmony search: the incumbent stays the best of the initial population through the whole run, whatever is evaluated. -/
theorem C107_hs_false (ht : t.exotic = true) :
    (∀ ncb hist w, (algT t B N p).Trace env ncb hist w → ∃ r₀ w₀, (algT t B N p).Trace env ncb [r₀] w₀ ∧ ∀ r ∈ hist, Unmoved r₀.2 r.2) ∧
    ∀ main ncb fuel res, ((algT t B N p).exec env main ncb fuel).1 = .ok ⟨some res, none⟩ → ∃ r₀ w₀, (algT t B N p).Trace env ncb [r₀] w₀ ∧
      res.2 = env.opt.mul r₀.2.2 ∧ (r₀.2.2 ≠ .pinf → res.1 = r₀.2.1) := by
  refine Alg.unmoved fun (s : St D N) xb fxb => ?_
  show Post env (iterT t B p s xb fxb) _
  refine .bind' .any fun _ _ => .bind' .any fun _ _ => .bind' (evalT_numbered ht _) fun v hv => .bind' .any fun _ _ => ?_
  exact .bind' (.ofExcept fun b hb => getBestT_stuck hv hb) fun b hb => .pure' hb

/-- C107 holds of harmony search for every other type: same results, same evaluations, same callback events. -/
theorem C107_hs_partial (ht : t.exotic = false) (main : Bool) (ncb fuel : ℕ) :
    (algT t B N p).exec env main ncb fuel = (alg B N p).exec env main ncb fuel := by
  refine Alg.exec_congr (A := alg B N p) (iter' := iterT t B p) (Inv := fun _ => True) .any (fun _ _ _ _ => Post.any) (fun s xb fxb _ => ?_) main ncb fuel
  show Same env (iter B p s xb fxb) (iterT t B p s xb fxb)
  intro w
  refine Eq.symm (Same.bind' (P := fun _ => True) .any (fun h _ => .bind' (P := fun _ => True) .any fun h _ => evalT_same ht h fun b v => ?_) w)
  refine .bind' (P := fun _ => True) .any fun iw _ => ?_
  rw [(C107_get_best_partial [] [] none h xb v fxb ht b).2.1]
  exact .rfl'

/-- Four evaluations of the sphere function: two at the upper bound, the others at the centre. -/
def Ex.envK : Env (Vec 1) :=
  NiaPy.Ex.env NiaPy.Ex.sphere .minimization (some 4) none none ⟨fun _ => 0, fun k => if k < 2 then 2 else 0, fun _ => .fin 0, fun _ => 0, fun k => k⟩
    fun _ _ x i => NiaPy.Ex.clip1 (x i)

omit [Arith] in
/-- Indeed: on the sphere function with single precision a better solution than the one returned is evaluated; with double precision it is
the one returned. -/
example : letI := NiaPy.Ex.arith
    (match (algT .float32 (NiaPy.Ex.box 1) 2 ⟨.fin 1, .fin 1, .plain (.fin 1)⟩).exec Ex.envK true 0 9 with
      | (.ok ⟨some r, _⟩, w) => w.calls.any fun c => match c.2 with | .ok v => decide (v < r.2) | _ => false
      | _ => false) = true ∧
    (match (algT .float64 (NiaPy.Ex.box 1) 2 ⟨.fin 1, .fin 1, .plain (.fin 1)⟩).exec Ex.envK true 0 9 with
      | (.ok ⟨some r, _⟩, w) => w.calls.all fun c => match c.2 with | .ok v => decide (r.2 ≤ v) | _ => false
      | _ => false) = true := by decide +kernel

end NiaPy.HS

namespace NiaPy.GWO
open NiaPy
variable [Arith] {D N : ℕ}

/-- `run_iteration` (gwo.py:92-143) on an objective function that returns `t`. The fitness of the alpha wolf is an element of the array of
fitness values, whose type is the one of the first evaluation; an iteration takes place only if the task had not stopped then. -/
def iterT (t : NumType) (s : St D N) (xb : Vec D) (fxb : Fl) : Prog (Vec D) (St D N × Vec D × Fl) := do
  let v ← Prog.look
  let r ← moveEval fun i => move (amount v) s.lead (s.pop i)
  let pop := fun i => (r i).1
  let fit := fun i => (r i).2
  let l := s.lead.scan pop fit
  let b ← Prog.ofExcept (getBestT (.one l.alpha (t.evaluated false) l.alphaF) (some xb) fxb)
  return (⟨pop, fit, l⟩, b)

/-- `GreyWolfOptimizer` on such a function. -/
def algT (t : NumType) (B : Box D) (N : ℕ) : Alg (Vec D) := { alg B N with iter := iterT t }

variable (B : Box D) {env : Env (Vec D)} {t : NumType}

/-- C107 is false of the grey wolf optimizer: no iteration changes the incumbent. -/
theorem C107_gwo_false (ht : t.exotic = true) :
    (∀ (s : St D N) xb fxb, Post env (iterT t s xb fxb) fun r => r.2 = (xb, fxb)) ∧
    (∀ ncb hist w, (algT t B N).Trace env ncb hist w → ∃ r₀ w₀, (algT t B N).Trace env ncb [r₀] w₀ ∧ ∀ r ∈ hist, Unmoved r₀.2 r.2) ∧
    ∀ main ncb fuel res, ((algT t B N).exec env main ncb fuel).1 = .ok ⟨some res, none⟩ → ∃ r₀ w₀, (algT t B N).Trace env ncb [r₀] w₀ ∧
      res.2 = env.opt.mul r₀.2.2 ∧ (r₀.2.2 ≠ .pinf → res.1 = r₀.2.1) := by
  have key : ∀ (s : St D N) xb fxb, Post env (iterT t s xb fxb) fun r => r.2 = (xb, fxb) := by
    intro s xb fxb
    unfold iterT
    refine .bind' .any fun _ _ => .bind' .any fun r _ => ?_
    show Post env (Prog.bind (Prog.ofExcept (getBestT (.one _ (t.evaluated false) _) (some xb) fxb)) _) _
    rw [C107_get_best_false _ _ _ _ ht]
    exact .bind' (P := fun b => b = (xb, fxb)) (.ofExcept fun b hb => by cases hb; rfl) fun b hb => .pure' hb
  exact ⟨key, Alg.unmoved fun (s : St D N) xb fxb => (key s xb fxb).mono fun r hr => by rw [hr]; exact .refl _⟩

/-- C107 holds of the grey wolf optimizer for every other type. -/
theorem C107_gwo_partial (ht : t.exotic = false) (main : Bool) (ncb fuel : ℕ) :
    (algT t B N).exec env main ncb fuel = (alg B N).exec env main ncb fuel := by
  refine Alg.exec_congr (A := alg B N) (iter' := iterT t) (Inv := fun _ => True) .any (fun _ _ _ _ => Post.any) (fun (s : St D N) xb fxb _ => ?_) main ncb fuel
  refine .bind' (P := fun _ => True) .any fun v _ => .bind' (P := fun _ => True) .any fun r _ => ?_
  show Same env _ (Prog.bind (Prog.ofExcept (getBestT (.one _ (t.evaluated false) _) (some xb) fxb)) _)
  rw [(C107_get_best_partial [] [] none _ xb _ fxb ht false).2.1]
  exact .rfl'

end NiaPy.GWO

namespace NiaPy.GA
open NiaPy
variable [Arith] {D N : ℕ}

/-- `Individual.evaluate` (algorithm.py:386-400) with the type of the fitness. -/
def evaluateT (t : NumType) (x : Vec D) : Prog (Vec D) (Indiv D × NumType) := do
  let x ← Prog.repair x
  let v ← evalT t x
  return (⟨x, v.2⟩, v.1)

/-- One pass of the loop in `run_iteration` (ga.py:364-370) on an objective function that returns `t`. -/
def stepT (t : NumType) (B : Box D) (p : Par) (fuel : ℕ) (pop : Fin N → Indiv D) (i : Fin N) (b : Vec D × Fl) :
    Prog (Vec D) (Indiv D × Vec D × Fl) := do
  let _ ← p.sel.run pop i b.1
  let _ ← p.cross.run fuel pop i
  let x ← p.mutation.run B pop i
  let ind ← evaluateT t x
  let b ← Prog.ofExcept (if ind.1.f < b.2 then getBestT (.one ind.1.x ind.2 ind.1.f) (some b.1) b.2 else .ok b)
  return (ind.1, b)

/-- `run_iteration` (ga.py:342-371) on such a function. -/
def iterT (t : NumType) (B : Box D) (p : Par) (fuel : ℕ) (pop : Fin N → Indiv D) (xb : Vec D) (fxb : Fl) :
    Prog (Vec D) ((Fin N → Indiv D) × Vec D × Fl) :=
  forFin N (fun i a => do
    let r ← stepT t B p fuel pop i a.2
    return (Function.update a.1 i r.1, r.2)) (pop, xb, fxb)

/-- `GeneticAlgorithm` on such a function. -/
def algT (t : NumType) (opt : OptType) (B : Box D) (N : ℕ) (p : Par) (fuel : ℕ) : Alg (Vec D) := { alg opt B N p fuel with iter := iterT t B p fuel }

variable (opt : OptType) (B : Box D) (p : Par) (n : ℕ) {env : Env (Vec D)} {t : NumType}

/-- C107 is false of the genetic algorithm: no iteration changes the incumbent. -/
theorem C107_ga_false (ht : t.exotic = true) :
    (∀ (pop : Fin N → Indiv D) xb fxb, Post env (iterT t B p n pop xb fxb) fun r => r.2 = (xb, fxb)) ∧
    (∀ ncb hist w, (algT t opt B N p n).Trace env ncb hist w → ∃ r₀ w₀, (algT t opt B N p n).Trace env ncb [r₀] w₀ ∧ ∀ r ∈ hist, Unmoved r₀.2 r.2) ∧
    ∀ main ncb fuel res, ((algT t opt B N p n).exec env main ncb fuel).1 = .ok ⟨some res, none⟩ →
      ∃ r₀ w₀, (algT t opt B N p n).Trace env ncb [r₀] w₀ ∧ res.2 = env.opt.mul r₀.2.2 ∧ (r₀.2.2 ≠ .pinf → res.1 = r₀.2.1) := by
  have key : ∀ (pop : Fin N → Indiv D) xb fxb, Post env (iterT t B p n pop xb fxb) fun r => r.2 = (xb, fxb) := by
    intro pop xb fxb
    refine Post.eachFin (fun r : (Fin N → Indiv D) × Vec D × Fl => r.2 = (xb, fxb)) rfl fun i a ha => ?_
    refine .bind' (P := fun r => r.2 = (xb, fxb)) ?_ fun r hr => .pure' hr
    rw [ha]
    unfold stepT
    refine .bind' .any fun _ _ => .bind' .any fun _ _ => .bind' .any fun x _ => .bind' (P := fun ind => Numbered (ind.2, ind.1.f)) ?_ fun ind hi => ?_
    · exact .bind' .any fun _ _ => .bind' (evalT_numbered ht _) fun v hv => .pure' hv
    · refine .bind' (P := fun b => b = (xb, fxb)) (.ofExcept fun b hb => ?_) fun b hb => .pure' hb
      split at hb
      · rename_i hlt
        simp only [getBestT] at hb
        split at hb
        · rename_i h'
          have : ind.1.f = .pinf := hi h'.1
          rw [this] at hlt
          exact absurd hlt (by cases fxb <;> simp)
        · cases hb; rfl
      · cases hb; rfl
  exact ⟨key, Alg.unmoved fun (s : Fin N → Indiv D) xb fxb => (key s xb fxb).mono fun r hr => by rw [hr]; exact .refl _⟩

omit [Arith] in
theorem _root_.NiaPy.forFin_same {X σ : Type} {env : Env X} {n : ℕ} {f g : Fin n → σ → Prog X σ} (h : ∀ i s, Same env (f i s) (g i s)) (s : σ) :
    Same env (forFin n f s) (forFin n g s) := by
  induction n generalizing s with
  | zero => exact .rfl'
  | succ n ih => exact Same.trans (.bindl (h 0 s)) (.bind (P := fun _ => True) .any fun a _ => ih (fun i => h i.succ) a)

/-- C107 holds of the genetic algorithm for every other type. -/
theorem C107_ga_partial (ht : t.exotic = false) (main : Bool) (ncb fuel : ℕ) :
    (algT t opt B N p n).exec env main ncb fuel = (alg opt B N p n).exec env main ncb fuel := by
  refine Alg.exec_congr (A := alg opt B N p n) (iter' := iterT t B p n) (Inv := fun _ => True) .any (fun _ _ _ _ => Post.any)
    (fun (s : Fin N → Indiv D) xb fxb _ => forFin_same (fun i a => .bindl ?_) _) main ncb fuel
  refine .bind' (P := fun _ => True) .any fun _ _ => .bind' (P := fun _ => True) .any fun _ _ => .bind' (P := fun _ => True) .any fun x _ => ?_
  intro w
  have h : Same env (do
      let x ← Prog.repair x
      let v ← evalT t x
      let b ← Prog.ofExcept (if v.2 < a.2.2 then getBestT (.one x v.1 v.2) (some a.2.1) a.2.2 else .ok a.2)
      return ((⟨x, v.2⟩ : Indiv D), b)) (do
      let x ← Prog.repair x
      let v ← Prog.eval x
      return ((⟨x, v⟩ : Indiv D), if v < a.2.2 then getBest1 x v a.2.1 a.2.2 else a.2)) := by
    refine .bind' (P := fun _ => True) .any fun x _ => evalT_same ht x fun b v => ?_
    simp only
    rw [(C107_get_best_partial [] [] none x a.2.1 v a.2.2 ht b).2.1]
    split <;> exact .rfl'
  refine Eq.trans ?_ ((h w).symm.trans ?_)
  · simp only [Indiv.evaluate, Prog.bind_def, Prog.run_bind]
    rcases (Prog.repair x).run env w with ⟨e | y, w1⟩
    · rfl
    simp only [Prog.run_bind]
    rcases (Prog.eval y).run env w1 with ⟨e | v, w2⟩ <;> rfl
  · simp only [evaluateT, Prog.bind_def, Prog.run_bind]
    rcases (Prog.repair x).run env w with ⟨e | y, w1⟩
    · rfl
    simp only [Prog.run_bind]
    rcases (evalT t y).run env w1 with ⟨e | v, w2⟩ <;> rfl

end NiaPy.GA

namespace NiaPy.FSS
open NiaPy
variable [Arith] {D N : ℕ}

/-- The incumbent after a call of `get_best`, in the loops of the fish school. -/
def best (a : BestArg (Vec D)) (school : Fin N → Fish D) (xb : Vec D) (fxb : Fl) : Prog (Vec D) ((Fin N → Fish D) × Vec D × Fl) := do
  let b ← Prog.ofExcept (getBestT a (some xb) fxb)
  return (school, b)

/-- One pass of the loop in `individual_movement` (fss.py:223-235) on an objective function that returns `t`. -/
def moveOneT (t : NumType) (step : Vec D) (i : Fin N) (a : (Fin N → Fish D) × Vec D × Fl) : Prog (Vec D) ((Fin N → Fish D) × Vec D × Fl) := do
  let (school, xb, fxb) := a
  let fish := school i
  let u ← unifVec (fun _ : Fin D => -1) (fun _ => 1)
  let newPos ← Prog.repair fun j => fish.x j + step j * u j
  let cost ← evalT t newPos
  if cost.2 < fish.f then
    best (.one newPos cost.1 cost.2)
      (Function.update school i { fish with dCost := Fl.abs (cost.2 - fish.f), f := cost.2, dPos := fun j => newPos j - fish.x j, x := newPos }) xb fxb
  else
    return (Function.update school i { fish with dPos := fun _ => 0, dCost := 0 }, xb, fxb)

/-- One pass of the loop in `collective_volitive_movement` (fss.py:279-285) on such a function. -/
def volOneT (t : NumType) (step bary : Vec D) (shrink : Bool) (i : Fin N) (a : (Fin N → Fish D) × Vec D × Fl) :
    Prog (Vec D) ((Fin N → Fish D) × Vec D × Fl) := do
  let (school, xb, fxb) := a
  let fish := school i
  let u ← unifVec (fun _ : Fin D => 0) (fun _ => 1)
  let x : Vec D := fun j =>
    let d := (fish.x j - bary j) * step j * u j
    if shrink then fish.x j - d else fish.x j + d
  let x ← Prog.repair x
  let v ← evalT t x
  best (.one x v.1 v.2) (Function.update school i { fish with x := x, f := v.2 }) xb fxb

/-- `collective_volitive_movement` (fss.py:256-286) on such a function. -/
def volitiveT (t : NumType) (step : Vec D) (prev : Fl) (school : Fin N → Fish D) (xb : Vec D) (fxb : Fl) :
    Prog (Vec D) ((Fin N → Fish D) × Vec D × Fl) :=
  let w := vsum fun i => (school i).weight
  let bary : Vec D := fun j => (vsum fun i => (school i).x j * (school i).weight) / w
  forFin N (volOneT t step bary (decide (prev < w))) (school, xb, fxb)

/-- `run_iteration` (fss.py:309-345) on such a function. -/
def iterT (t : NumType) (p : Par) (s : St D N) (xb : Vec D) (fxb : Fl) : Prog (Vec D) (St D N × Vec D × Fl) := do
  let (school, xb, fxb) ← forFin N (moveOneT t s.stepInd) (s.school, xb, fxb)
  let school ← feeding p school
  let school ← instinctive school
  let (school, xb, fxb) ← volitiveT t s.stepVol s.weight school xb fxb
  let v ← Prog.look
  return (⟨school, fun _ => stepAt p.stepIndInit p.stepIndFinal v, fun _ => stepAt p.stepVolInit p.stepVolFinal v, s.weight⟩, xb, fxb)

/-- `FishSchoolSearch` on such a function. -/
def algT (t : NumType) (opt : OptType) (B : Box D) (N : ℕ) (p : Par) : Alg (Vec D) := { alg opt B N p with iter := iterT t p }

variable (opt : OptType) (B : Box D) (p : Par) {env : Env (Vec D)} {t : NumType}

theorem best_stuck {x xb : Vec D} {f fxb : Fl} {s : NumType} (h : Numbered (s, f)) (school : Fin N → Fish D) :
    Post env (best (.one x s f) school xb fxb) fun r => Unmoved (xb, fxb) r.2 :=
  .bind' (.ofExcept fun _ hb => getBestT_stuck h hb) fun _ hb => .pure' hb

/-- C107 is false of fish school search: the incumbent stays the best of the initial school through the whole run, whatever is evaluated. -/
theorem C107_fss_false (ht : t.exotic = true) :
    (∀ ncb hist w, (algT t opt B N p).Trace env ncb hist w → ∃ r₀ w₀, (algT t opt B N p).Trace env ncb [r₀] w₀ ∧ ∀ r ∈ hist, Unmoved r₀.2 r.2) ∧
    ∀ main ncb fuel res, ((algT t opt B N p).exec env main ncb fuel).1 = .ok ⟨some res, none⟩ → ∃ r₀ w₀, (algT t opt B N p).Trace env ncb [r₀] w₀ ∧
      res.2 = env.opt.mul r₀.2.2 ∧ (r₀.2.2 ≠ .pinf → res.1 = r₀.2.1) := by
  refine Alg.unmoved fun (s : St D N) xb fxb => ?_
  show Post env (iterT t p s xb fxb) _
  refine .bind' (P := fun a => Unmoved (xb, fxb) a.2) ?_ fun a ha => .bind' .any fun _ _ => .bind' .any fun school _ =>
    .bind' (P := fun a => Unmoved (xb, fxb) a.2) ?_ fun b hb => .bind' .any fun _ _ => .pure' hb
  · refine Post.eachFin (fun a : (Fin N → Fish D) × Vec D × Fl => Unmoved (xb, fxb) a.2) (.refl _) fun i a ha => ?_
    refine .bind' .any fun _ _ => .bind' .any fun _ _ => .bind' (evalT_numbered ht _) fun v hv => ?_
    split
    · exact (best_stuck hv _).mono fun r hr => ha.trans hr
    · exact .pure' ha
  · refine Post.eachFin (fun a : (Fin N → Fish D) × Vec D × Fl => Unmoved (xb, fxb) a.2) ha fun i a ha => ?_
    refine .bind' .any fun _ _ => .bind' .any fun _ _ => .bind' (evalT_numbered ht _) fun v hv => ?_
    exact (best_stuck hv _).mono fun r hr => ha.trans hr

/-- C107 holds of fish school search for every other type. -/
theorem C107_fss_partial (ht : t.exotic = false) (main : Bool) (ncb fuel : ℕ) :
    (algT t opt B N p).exec env main ncb fuel = (alg opt B N p).exec env main ncb fuel := by
  have hb : ∀ (x xb : Vec D) v fxb s (school : Fin N → Fish D), best (.one x (t.evaluated s) v) school xb fxb = .pure (school, getBest1 x v xb fxb) := by
    intro x xb v fxb s school
    unfold best
    rw [(C107_get_best_partial [] [] none x xb v fxb ht s).2.1]
    rfl
  have hm : ∀ step i (a : (Fin N → Fish D) × Vec D × Fl), Same env (moveOneT t step i a) (moveOne step i a) := by
    intro step i a
    refine .bind' (P := fun _ => True) .any fun u _ => .bind' (P := fun _ => True) .any fun y _ => evalT_same ht y fun s v => ?_
    simp only
    rw [hb]
    split <;> exact .rfl'
  have hv : ∀ step bary shrink i (a : (Fin N → Fish D) × Vec D × Fl), Same env (volOneT t step bary shrink i a) (volOne step bary shrink i a) := by
    intro step bary shrink i a
    refine .bind' (P := fun _ => True) .any fun u _ => ?_
    intro w
    refine (Same.bind' (P := fun _ => True) .any (fun y _ => evalT_same ht y (g := fun v =>
      .pure (Function.update a.1 i { a.1 i with x := y, f := v }, getBest1 y v a.2.1 a.2.2)) fun s v => .of_eq (hb ..)) w).trans ?_
    simp only [Indiv.evaluate, Prog.bind_def, Prog.run_bind]
    generalize (fun j => if shrink = true then _ else _ : Vec D) = x
    rcases (Prog.repair x).run env w with ⟨e | y, w1⟩
    · rfl
    simp only [Prog.run_bind]
    rcases (Prog.eval y).run env w1 with ⟨e | v, w2⟩ <;> rfl
  refine Alg.exec_congr (A := alg opt B N p) (iter' := iterT t p) (Inv := fun _ => True) .any (fun _ _ _ _ => Post.any)
    (fun (s : St D N) xb fxb _ => ?_) main ncb fuel
  have : Same env (iterT t p s xb fxb) (iter p s xb fxb) := by
    refine Same.trans (.bindl (forFin_same (hm _) _)) (.bind' (P := fun _ => True) .any fun a _ => .bind' (P := fun _ => True) .any fun _ _ =>
      .bind' (P := fun _ => True) .any fun school _ => .bindl (forFin_same (hv _ _ _) _))
  exact fun w => (this w).symm

end NiaPy.FSS
