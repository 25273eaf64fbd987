import Verif.Ranks
import Verif.Total
import Verif.Algo.RS
import Verif.Algo.SA
import Verif.Algo.GSO
import Verif.Algo.PSO

/-!
# Searches that pay no attention to the objective (C104)

The same algorithm with the same seed is run on two objectives that have nothing to do with each other. Random search, glowworm swarm optimization and simulated annealing
(at positive temperatures) evaluate the same points in the same order: no fitness value has an influence on where they look.
-/

namespace NiaPy
variable {X α β γ δ σ : Type}

/-- All values of the objective are finite and above the cutoff value, callbacks return. -/
structure Env.Plain (env : Env X) : Prop where
  obj : ∀ k x, ∃ q, env.obj k x = .ok (.fin q) ∧ ¬ env.opt.mul (.fin q) ≤ env.opt.mul env.cutoff
  cutoff : ¬ Fl.pinf ≤ env.opt.mul env.cutoff
  callback : ∀ i k e, env.callback i k e = .ok ()

/-- Two tasks with the same limits, seed and repair function. Objective, optimization type and cutoff value may differ. -/
structure Unlike (env env' : Env X) : Prop where
  left : env.Plain
  right : env'.Plain
  maxEvals : env'.maxEvals = env.maxEvals
  maxIters : env'.maxIters = env.maxIters
  repairFn : env'.repairFn = env.repairFn
  rng : env'.rng = env.rng
  entropy : env'.entropy = env.entropy

/-- Two executions that have evaluated the same points and drawn the same random numbers. -/
structure Twins (env env' : Env X) (w w' : World X) : Prop where
  iters : w'.st.iters = w.st.iters
  evals : w'.st.evals = w.st.evals
  points : w'.calls.map (·.1) = w.calls.map (·.1)
  rk : w'.rk = w.rk
  ek : w'.ek = w.ek
  xf : ¬ env.opt.mul w.st.xf ≤ env.opt.mul env.cutoff
  xf' : ¬ env'.opt.mul w'.st.xf ≤ env'.opt.mul env'.cutoff

variable {env env' : Env X}

theorem Twins.init (hE : Unlike env env') : Twins env env' (World.init env.opt) (World.init env'.opt) := by
  refine ⟨rfl, rfl, rfl, rfl, rfl, ?_, ?_⟩
  · simpa [World.init, TaskSt.init] using hE.left.cutoff
  · simpa [World.init, TaskSt.init] using hE.right.cutoff

theorem Twins.stopping (hE : Unlike env env') {w w' : World X} (h : Twins env env' w w') :
    stoppingCondition env'.toTaskCfg w'.st = stoppingCondition env.toTaskCfg w.st := by
  simp only [stoppingCondition, h.evals, h.iters, hE.maxEvals, hE.maxIters, h.xf, h.xf']

/-- `p` in `env` and `q` in `env'` do the same, up to fitness values: results are related by `R`, exceptions are the same. Neither counts an iteration. -/
structure Pair (env env' : Env X) (R : α → β → Prop) (p : Prog X α) (q : Prog X β) : Prop where
  out : ∀ w w', Twins env env' w w' →
    (∃ a b w1 w1', p.run env w = (.ok a, w1) ∧ q.run env' w' = (.ok b, w1') ∧ R a b ∧ Twins env env' w1 w1' ∧ w1.st.iters = w.st.iters) ∨
    ∃ e w1 w1', p.run env w = (.error e, w1) ∧ q.run env' w' = (.error e, w1') ∧ Twins env env' w1 w1'

/-- Two values returned by `task.eval` for the same point. -/
def TwoVals (v v' : Fl) : Prop := ((∃ q, v = .fin q) ∧ ∃ q, v' = .fin q) ∨ v = .pinf ∧ v' = .pinf

namespace Pair
variable {R : α → β → Prop}

theorem pure' {a : α} {b : β} (h : R a b) : Pair env env' R (Pure.pure a) (Pure.pure b) := ⟨fun w w' hw => .inl ⟨a, b, w, w', rfl, rfl, h, hw, rfl⟩⟩
theorem pure {a : α} {b : β} (h : R a b) : Pair env env' R (.pure a) (.pure b) := pure' h
theorem throw {e : PyErr} : Pair env env' R (.throw e) (.throw e) := ⟨fun w w' hw => .inr ⟨e, w, w', rfl, rfl, hw⟩⟩

theorem bind {S : γ → δ → Prop} {p : Prog X α} {q : Prog X β} {f : α → Prog X γ} {k : β → Prog X δ} (h : Pair env env' R p q)
    (hf : ∀ a b, R a b → Pair env env' S (f a) (k b)) : Pair env env' S (p.bind f) (q.bind k) := ⟨fun w w' hw => by
  rw [Prog.run_bind, Prog.run_bind]
  rcases h.out w w' hw with ⟨a, b, w1, w1', h1, h2, h3, h4, h5⟩ | ⟨e, w1, w1', h1, h2, h3⟩
  · rw [h1, h2]
    rcases (hf a b h3).out w1 w1' h4 with ⟨a, b, w2, w2', g1, g2, g3, g4, g5⟩ | h
    · exact .inl ⟨a, b, w2, w2', g1, g2, g3, g4, g5.trans h5⟩
    · exact .inr h
  · rw [h1, h2]; exact .inr ⟨e, w1, w1', rfl, rfl, h3⟩⟩

theorem bind' {S : γ → δ → Prop} {p : Prog X α} {q : Prog X β} {f : α → Prog X γ} {k : β → Prog X δ} (h : Pair env env' R p q)
    (hf : ∀ a b, R a b → Pair env env' S (f a) (k b)) : Pair env env' S (p >>= f) (q >>= k) := bind h hf

/-- Programs that begin alike. -/
theorem step {S : γ → δ → Prop} {p : Prog X α} {f : α → Prog X γ} {k : α → Prog X δ} (h : Pair env env' Eq p p)
    (hf : ∀ a, Pair env env' S (f a) (k a)) : Pair env env' S (p >>= f) (p >>= k) := bind h fun a _ e => e ▸ hf a

theorem same {p : Prog X α} {q : Prog X α} {S : α → α → Prop} (h : Pair env env' Eq p q) (hS : ∀ a, S a a) : Pair env env' S p q := ⟨fun w w' hw => by
  rcases h.out w w' hw with ⟨a, b, w1, w1', h1, h2, h3, h4⟩ | h
  · exact .inl ⟨a, b, w1, w1', h1, h2, h3 ▸ hS a, h4⟩
  · exact .inr h⟩

theorem op (hE : Unlike env env') (o : Op X) (ho : (match o with | .eval _ => False | .fire _ _ => False | .nextIter => False | _ => True)) :
    Pair env env' Eq (Prog.lift o) (Prog.lift o) := ⟨fun w w' h => by
  rw [Prog.run_lift, Prog.run_lift]
  have key : (stepOp env' w' o).1 = (stepOp env w o).1 → Twins env env' (stepOp env w o).2 (stepOp env' w' o).2 → (stepOp env w o).2.st.iters = w.st.iters →
      (∃ a b w1 w1', stepOp env w o = (.ok a, w1) ∧ stepOp env' w' o = (.ok b, w1') ∧ a = b ∧ Twins env env' w1 w1' ∧ w1.st.iters = w.st.iters) ∨
      ∃ e w1 w1', stepOp env w o = (.error e, w1) ∧ stepOp env' w' o = (.error e, w1') ∧ Twins env env' w1 w1' := by
    intro h1 h2 h3
    rcases hs : stepOp env w o with ⟨e | a, w1⟩ <;> rcases hs' : stepOp env' w' o with ⟨e' | b, w1'⟩ <;> rw [hs, hs'] at h1 h2 <;> simp only at h1
    · cases h1; exact .inr ⟨_, _, _, rfl, rfl, h2⟩
    · cases h1
    · cases h1
    · cases h1
      rw [hs] at h3
      exact .inl ⟨_, _, _, _, rfl, rfl, rfl, h2, h3⟩
  have hst := h.stopping hE
  have hup : Twins env env' { w with rk := w.rk + 1 } { w' with rk := w'.rk + 1 } := ⟨h.iters, h.evals, h.points, congrArg (· + 1) h.rk, h.ek, h.xf, h.xf'⟩
  have hue : Twins env env' { w with ek := w.ek + 1 } { w' with ek := w'.ek + 1 } := ⟨h.iters, h.evals, h.points, h.rk, congrArg (· + 1) h.ek, h.xf, h.xf'⟩
  cases o with
  | eval x => exact ho.elim
  | fire i e => exact ho.elim
  | nextIter => exact ho.elim
  | look =>
    refine key ?_ h rfl
    simp only [stepOp, hst, h.iters, h.evals, hE.maxIters, hE.maxEvals]
  | int n =>
    by_cases hn : n = 0
    · refine key ?_ ?_ ?_ <;> simp only [stepOp, hn, if_true]
      exact h
    · refine key ?_ ?_ ?_ <;> simp only [stepOp, hn, if_false]
      · rw [hE.rng, h.rk]
      · exact hup
  | unif lo hi =>
    cases hn : unifErr lo hi with
    | some e =>
      refine key ?_ ?_ ?_ <;> simp only [stepOp, hn]
      exact h
    | none =>
      refine key ?_ ?_ ?_ <;> simp only [stepOp, hn]
      · rw [hE.rng, h.rk]
      · exact hup
  | dist d a b =>
    cases hn : distErr d b with
    | some e =>
      refine key ?_ ?_ ?_ <;> simp only [stepOp, hn]
      exact h
    | none =>
      refine key ?_ ?_ ?_ <;> simp only [stepOp, hn]
      · rw [hE.rng, h.rk]
      · exact hup
  | repair b x =>
    cases b
    · refine key ?_ hue rfl
      simp only [stepOp, hE.repairFn, hE.entropy, h.ek]
    · refine key ?_ hup rfl
      simp only [stepOp, hE.repairFn, hE.rng, h.rk]
  | _ =>
    refine key ?_ hup rfl
    simp only [stepOp, hE.rng, h.rk]⟩

theorem eval (hE : Unlike env env') {x : X} : Pair env env' TwoVals (Prog.eval x) (Prog.eval x) := ⟨fun w w' h => by
  rw [Prog.run_eval, Prog.run_eval]
  have hst := h.stopping hE
  obtain ⟨q, ho, hq⟩ := hE.left.obj w.st.evals x
  obtain ⟨q', ho', hq'⟩ := hE.right.obj w'.st.evals x
  refine .inl ?_
  cases hs : stoppingCondition env.toTaskCfg w.st with
  | true =>
    rw [hs] at hst
    refine ⟨.pinf, .pinf, w, w', by simp [evalTask, hs], by simp [evalTask, hst], .inr ⟨rfl, rfl⟩, h, rfl⟩
  | false =>
    rw [hs] at hst
    have hfin : ∀ (t : OptType) q, ∃ r, t.mul (.fin q) = .fin r := fun t q => by cases t <;> exact ⟨_, rfl⟩
    refine ⟨env.opt.mul (.fin q), env'.opt.mul (.fin q'), { w with st := _, calls := w.calls ++ [(x, .ok (.fin q))] },
      { w' with st := _, calls := w'.calls ++ [(x, .ok (.fin q'))] }, by simp [evalTask, hs, ho]; rfl, by simp [evalTask, hst, ho']; rfl, .inl ⟨hfin _ _, hfin _ _⟩, ?_, ?_⟩
    · constructor
      · simp only [record]; split <;> split <;> exact h.iters
      · simp only [record]; split <;> split <;> exact congrArg (· + 1) h.evals
      · simp [h.points]
      · exact h.rk
      · exact h.ek
      · simp only [record]
        split
        · simpa using hq
        · exact h.xf
      · simp only [record]
        split
        · simpa using hq'
        · exact h.xf'
    · simp only [record]; split <;> rfl⟩

theorem fireAll (hE : Unlike env env') {ncb : ℕ} {e e' : Event X} : Pair env env' (fun _ _ => True) (NiaPy.fireAll ncb e) (NiaPy.fireAll ncb e') := by
  unfold NiaPy.fireAll
  suffices h : ∀ (l : List ℕ) (u u' : Unit), Pair env env' (fun _ _ => True) (forList l (fun i _ => Prog.fire i e) u) (forList l (fun i _ => Prog.fire i e') u') from h _ _ _
  intro l
  induction l with
  | nil => intro u u'; exact pure trivial
  | cons i l ih =>
    intro u u'
    refine bind (R := fun _ _ => True) ⟨fun w w' h => ?_⟩ fun a b _ => ih a b
    rw [Prog.run_fire, Prog.run_fire]
    simp only [hE.left.callback, hE.right.callback]
    exact .inl ⟨(), (), _, _, rfl, rfl, trivial, ⟨h.iters, h.evals, h.points, h.rk, h.ek, h.xf, h.xf'⟩, rfl⟩

theorem ite {c : Prop} [Decidable c] {p p' : Prog X α} {q q' : Prog X β} (h : c → Pair env env' R p q) (h' : ¬ c → Pair env env' R p' q') :
    Pair env env' R (if c then p else p') (if c then q else q') := by
  split
  · exact h ‹_›
  · exact h' ‹_›

theorem ok {r : Except PyErr α} {r' : Except PyErr β} (h : ∃ a b, r = .ok a ∧ r' = .ok b ∧ R a b) : Pair env env' R (Prog.ofExcept r) (Prog.ofExcept r') := by
  obtain ⟨a, b, rfl, rfl, h⟩ := h
  exact pure h

theorem tabM {n : ℕ} {f : Fin n → Prog X α} {k : Fin n → Prog X β} {S : Fin n → α → β → Prop} (h : ∀ i, Pair env env' (S i) (f i) (k i)) :
    Pair env env' (fun r r' => ∀ i, S i (r i) (r' i)) (NiaPy.tabM n f) (NiaPy.tabM n k) := by
  induction n with
  | zero => exact pure fun i => i.elim0
  | succ n ih =>
    refine bind (h 0) fun a b hab => bind (ih (S := fun i => S i.succ) fun i => h i.succ) fun r r' hr => pure fun i => ?_
    refine Fin.cases ?_ (fun i => ?_) i
    · exact hab
    · exact hr i

theorem tabEq {n : ℕ} {f k : Fin n → Prog X α} (h : ∀ i, Pair env env' Eq (f i) (k i)) : Pair env env' Eq (NiaPy.tabM n f) (NiaPy.tabM n k) := ⟨fun w w' hw => by
  rcases (tabM h).out w w' hw with ⟨a, b, w1, w1', h1, h2, h3, h4⟩ | h
  · exact .inl ⟨a, b, w1, w1', h1, h2, funext h3, h4⟩
  · exact .inr h⟩

theorem forFinEq {n : ℕ} {f : Fin n → σ → Prog X σ} {s : σ} (h : ∀ i s, Pair env env' Eq (f i s) (f i s)) : Pair env env' Eq (NiaPy.forFin n f s) (NiaPy.forFin n f s) := by
  induction n generalizing s with
  | zero => exact pure rfl
  | succ n ih => exact bind (h 0 s) fun a b e => e ▸ ih fun i => h i.succ

theorem rand (hE : Unlike env env') : Pair env env' Eq (Prog.rand : Prog X Fl) Prog.rand := op hE .rand trivial
theorem look (hE : Unlike env env') : Pair env env' Eq (Prog.look : Prog X TaskView) Prog.look := op hE .look trivial
theorem unif (hE : Unlike env env') {a b : Fl} : Pair env env' Eq (Prog.unif a b : Prog X Fl) (Prog.unif a b) := op hE (.unif a b) trivial
theorem repair (hE : Unlike env env') {s : Bool} {x : X} : Pair env env' Eq (Prog.repair x s : Prog X X) (Prog.repair x s) := op hE (.repair s x) trivial
theorem intFin (hE : Unlike env env') {n : ℕ} : Pair env env' Eq (NiaPy.intFin n : Prog X (Fin n)) (NiaPy.intFin n) :=
  bind (op hE (.int n) trivial) fun k _ e => e ▸ by split <;> [exact pure rfl; exact throw]
theorem unifVec (hE : Unlike env env') {n : ℕ} {a b : Vec n} : Pair env env' Eq (NiaPy.unifVec a b : Prog X (Vec n)) (NiaPy.unifVec a b) := tabEq fun _ => unif hE
theorem randVec (hE : Unlike env env') {n : ℕ} : Pair env env' Eq (NiaPy.randVec n : Prog X (Vec n)) (NiaPy.randVec n) := tabEq fun _ => rand hE

theorem evalRows (hE : Unlike env env') {n : ℕ} {pop : Fin n → X} :
    Pair env env' (fun r r' => 0 < n ∧ ∀ i, TwoVals (r i) (r' i)) (NiaPy.evalRows pop) (NiaPy.evalRows pop) := by
  unfold NiaPy.evalRows
  refine ite (fun _ => throw) fun hn => ⟨fun w w' hw => ?_⟩
  rcases (tabM fun _ => eval hE).out w w' hw with ⟨a, b, w1, w1', h1, h2, h3, h4⟩ | h
  · exact .inl ⟨a, b, w1, w1', h1, h2, ⟨Nat.pos_of_ne_zero hn, h3⟩, h4⟩
  · exact .inr h

theorem numpyInit {D : ℕ} {env env' : Env (Vec D)} (hE : Unlike env env') {B : Box D} {N : ℕ} :
    Pair env env' (fun r r' => r'.1 = r.1 ∧ 0 < N ∧ ∀ i, TwoVals (r.2 i) (r'.2 i)) (defaultNumpyInit B N) (defaultNumpyInit B N) := by
  refine step (tabEq fun _ => unifVec hE) fun pop => ite (fun _ => throw) fun hn => ?_
  exact bind' (tabM fun _ => eval hE) fun f f' hf => pure' ⟨rfl, Nat.pos_of_ne_zero hn, hf⟩

end Pair

theorem argminGo_lt (cur : Fl) (ci i : ℕ) (l : List Fl) (h : ci < i) : argminGo cur ci i l < i + l.length := by
  induction l generalizing cur ci i with
  | nil => simpa [argminGo] using h
  | cons v l ih =>
    rw [argminGo]
    split
    · simp only [List.length_cons]; omega
    · split
      · have := ih v i (i + 1) (by omega); simp only [List.length_cons]; omega
      · have := ih cur ci (i + 1) (by omega); simp only [List.length_cons]; omega

theorem argmin_ok {l : List Fl} (h : l ≠ []) : ∃ i, argmin l = .ok i ∧ i < l.length := by
  cases l with
  | nil => exact absurd rfl h
  | cons v l => exact ⟨_, rfl, by have := argminGo_lt v 0 1 l (by omega); simp only [List.length_cons]; omega⟩

theorem getBest_some {pop : List X} {fit : List Fl} (hl : pop.length = fit.length) (hf : fit ≠ []) (xb : X) (fxb : Fl) :
    ∃ b, getBest pop fit (some xb) fxb = .ok b := by
  obtain ⟨i, hi, hlt⟩ := argmin_ok hf
  unfold getBest
  rw [hi]
  simp only [List.getElem?_eq_getElem hlt, List.getElem?_eq_getElem (show i < pop.length by omega)]
  split <;> exact ⟨_, rfl⟩

theorem getBest_none {pop : List X} {fit : List Fl} (hl : pop.length = fit.length) (hf : fit ≠ []) (h : ∀ v ∈ fit, v ≤ .pinf) :
    ∃ b, getBest pop fit none .pinf = .ok b := by
  obtain ⟨i, hi, hlt⟩ := argmin_ok hf
  unfold getBest
  rw [hi]
  simp only [List.getElem?_eq_getElem hlt, List.getElem?_eq_getElem (show i < pop.length by omega), if_pos (h _ (List.getElem_mem hlt))]
  exact ⟨_, rfl⟩

theorem TwoVals.le {v v' : Fl} (h : TwoVals v v') : v ≤ .pinf ∧ v' ≤ .pinf := by
  rcases h with ⟨⟨q, rfl⟩, q', rfl⟩ | ⟨rfl, rfl⟩
  · exact ⟨Fl.fin_le_pinf _, Fl.fin_le_pinf _⟩
  · exact ⟨Fl.le_refl (by simp), Fl.le_refl (by simp)⟩

theorem Pair.getBest {pop : List X} {fit : List Fl} {pop' : List X} {fit' : List Fl} {xb xb' : X} {fxb fxb' : Fl} (hl : pop.length = fit.length) (hf : fit ≠ [])
    (hl' : pop'.length = fit'.length) (hf' : fit' ≠ []) :
    Pair env env' (fun _ _ => True) (Prog.getBest pop fit xb fxb) (Prog.getBest pop' fit' xb' fxb') := by
  obtain ⟨b, hb⟩ := getBest_some hl hf xb fxb
  obtain ⟨b', hb'⟩ := getBest_some hl' hf' xb' fxb'
  exact .ok ⟨b, b', hb, hb', trivial⟩

/-- Some run begins an iteration after exactly `n` iterations. -/
def Alg.Live (A : Alg X) (env : Env X) (n : ℕ) : Prop :=
  ∃ ncb r hist w, A.Trace env ncb (r :: hist) w ∧ stoppingCondition env.toTaskCfg w.st = false ∧ w.st.iters = n

/-- The algorithm evaluates the same points for `env` and `env'`; `R n` relates the states after `n` iterations. -/
structure Unguided (A : Alg X) (env env' : Env X) (R : ℕ → A.σ → A.σ → Prop) : Prop where
  init : Pair env env' (R 0) A.init A.init
  len : ∀ n s s', R n s s' → (A.pop s).length = (A.fit s).length ∧ (A.pop s').length = (A.fit s').length ∧ A.fit s ≠ [] ∧ A.fit s' ≠ []
  le : ∀ s s', R 0 s s' → (∀ v ∈ A.fit s, v ≤ .pinf) ∧ ∀ v ∈ A.fit s', v ≤ .pinf
  iter : ∀ n, A.Live env n → ∀ s s' xb fxb xb' fxb', R n s s' → Pair env env' (fun r r' => R (n + 1) r.1 r'.1) (A.iter s xb fxb) (A.iter s' xb' fxb')

/-- How two runs end that have evaluated the same points. -/
def SameEnd : Except PyErr α → Except PyErr β → Prop
  | .ok _, .ok _ => True
  | .error e, .error e' => e' = e
  | _, _ => False

theorem Unguided.loop {A : Alg X} {R : ℕ → A.σ → A.σ → Prop} (hA : Unguided A env env' R) (hE : Unlike env env') (ncb fuel n : ℕ) (r r' : A.σ × X × Fl)
    (hist : List (A.σ × X × Fl)) (hR : R n r.1 r'.1) (w w' : World X) (ht : A.Trace env ncb (r :: hist) w) (hw : Twins env env' w w') (hn : w.st.iters = n) :
    SameEnd ((A.loop ncb fuel r.1 r.2.1 r.2.2).run env w).1 ((A.loop ncb fuel r'.1 r'.2.1 r'.2.2).run env' w').1 ∧
    Twins env env' ((A.loop ncb fuel r.1 r.2.1 r.2.2).run env w).2 ((A.loop ncb fuel r'.1 r'.2.1 r'.2.2).run env' w').2 := by
  induction fuel generalizing n r r' hist w w' with
  | zero => exact ⟨rfl, hw⟩
  | succ fuel ih =>
    have hst := hw.stopping hE
    simp only [Alg.loop, Prog.bind_def, Prog.run_bind, Prog.run_look]
    cases hs : stoppingCondition env.toTaskCfg w.st with
    | true =>
      rw [hs] at hst
      simp only [hst, if_true, Prog.pure_def, Prog.run_pure]
      exact ⟨trivial, hw⟩
    | false =>
      rw [hs] at hst
      simp only [hst, Bool.false_eq_true, if_false, Prog.run_bind]
      rcases (Pair.fireAll hE (ncb := ncb) (e := .beforeIteration (A.pop r.1) (A.fit r.1) r.2.1 r.2.2)
        (e' := .beforeIteration (A.pop r'.1) (A.fit r'.1) r'.2.1 r'.2.2)).out w w' hw with ⟨a, b, w1, w1', h1, h2, -, h4, h5⟩ | ⟨e, w1, w1', h1, h2, h3⟩
      swap
      · rw [h1, h2]; exact ⟨rfl, h3⟩
      rw [h1, h2]
      simp only
      rcases (hA.iter n ⟨ncb, r, hist, w, ht, hs, hn⟩ r.1 r'.1 r.2.1 r.2.2 r'.2.1 r'.2.2 hR).out w1 w1' h4 with
        ⟨s1, s2, w2, w2', g1, g2, g3, g4, g5⟩ | ⟨e, w2, w2', g1, g2, g3⟩
      swap
      · rw [g1, g2]; exact ⟨rfl, g3⟩
      rw [g1, g2]
      simp only
      rcases (Pair.fireAll hE (ncb := ncb) (e := .afterIteration (A.pop s1.1) (A.fit s1.1) s1.2.1 s1.2.2)
        (e' := .afterIteration (A.pop s2.1) (A.fit s2.1) s2.2.1 s2.2.2)).out w2 w2' g4 with ⟨a, b, w3, w3', k1, k2, -, k4, k5⟩ | ⟨e, w3, w3', k1, k2, k3⟩
      swap
      · rw [k1, k2]; exact ⟨rfl, k3⟩
      rw [k1, k2]
      simp only [Prog.run_next]
      refine ih (n + 1) s1 s2 (r :: hist) g3 _ _ (.round ht hs ?_) ⟨congrArg (· + 1) k4.iters, k4.evals, k4.points, k4.rk, k4.ek, k4.xf, k4.xf'⟩ ?_
      · simp only [Alg.round, Prog.bind_def, Prog.run_bind, h1, g1, k1, Prog.run_next, Prog.pure_def, Prog.run_pure]
      · show w3.st.iters + 1 = n + 1
        rw [k5, g5, h5, hn]

/-- Two runs of such an algorithm. -/
theorem Unguided.exec {A : Alg X} {R : ℕ → A.σ → A.σ → Prop} (hA : Unguided A env env' R) (hE : Unlike env env') (main : Bool) (ncb fuel : ℕ) :
    SameEnd (A.exec env main ncb fuel).1 (A.exec env' main ncb fuel).1 ∧
    (A.exec env' main ncb fuel).2.calls.map (·.1) = (A.exec env main ncb fuel).2.calls.map (·.1) ∧
    (A.exec env' main ncb fuel).2.st.evals = (A.exec env main ncb fuel).2.st.evals ∧ (A.exec env' main ncb fuel).2.st.iters = (A.exec env main ncb fuel).2.st.iters := by
  suffices h : SameEnd (A.execBody env ncb fuel).1 (A.execBody env' ncb fuel).1 ∧ Twins env env' (A.execBody env ncb fuel).2 (A.execBody env' ncb fuel).2 by
    rw [exec_eq, exec_eq]
    refine ⟨?_, h.2.points, h.2.evals, h.2.iters⟩
    have h := h.1
    revert h
    rcases (A.execBody env ncb fuel).1 with e | r <;> rcases (A.execBody env' ncb fuel).1 with e' | r' <;> intro h
    · cases h
      simp only
      split
      · exact rfl
      · trivial
    · exact h.elim
    · exact h.elim
    · trivial
  unfold Alg.execBody Alg.body
  simp only [Prog.bind_def, Prog.run_bind]
  rcases (Pair.fireAll hE (ncb := ncb) (e := .beforeRun) (e' := .beforeRun)).out _ _ (Twins.init hE) with ⟨a, b, w1, w1', h1, h2, -, h4, h5⟩ | ⟨e, w1, w1', h1, h2, h3⟩
  swap
  · rw [h1, h2]; exact ⟨rfl, h3⟩
  rw [h1, h2]
  simp only
  rcases hA.init.out w1 w1' h4 with ⟨s, s', w2, w2', g1, g2, g3, g4, g5⟩ | ⟨e, w2, w2', g1, g2, g3⟩
  swap
  · rw [g1, g2]; exact ⟨rfl, g3⟩
  rw [g1, g2]
  simp only
  obtain ⟨l1, l2, l3, l4⟩ := hA.len 0 s s' g3
  obtain ⟨v1, v2⟩ := hA.le s s' g3
  obtain ⟨b, hb⟩ := getBest_none l1 l3 v1
  obtain ⟨b', hb'⟩ := getBest_none l2 l4 v2
  rw [hb, hb']
  simp only [Prog.ofExcept, Prog.run_pure]
  have hz : w2.st.iters = 0 := by rw [g5, h5]; rfl
  have ht : A.Trace env ncb [(s, b.1, b.2)] w2 := .start (by
    simp only [Alg.start, Prog.bind_def, Prog.run_bind, h1, g1, hb, Prog.ofExcept, Prog.run_pure, Prog.pure_def])
  obtain ⟨he, ht⟩ := hA.loop hE ncb fuel 0 (s, b) (s', b') [] g3 w2 w2' ht g4 hz
  simp only at he ht
  rcases hr : (A.loop ncb fuel s b.1 b.2).run env w2 with ⟨e | r, w3⟩ <;> rcases hr' : (A.loop ncb fuel s' b'.1 b'.2).run env' w2' with ⟨e' | r', w3'⟩ <;>
    rw [hr, hr'] at he ht
  · exact ⟨he, ht⟩
  · exact he.elim
  · exact he.elim
  · simp only
    rcases (Pair.fireAll hE (ncb := ncb) (e := .afterRun) (e' := .afterRun)).out _ _ ht with ⟨a, b, w4, w4', k1, k2, -, k4, k5⟩ | ⟨e, w4, w4', k1, k2, k3⟩
    · rw [k1, k2]; exact ⟨trivial, k4⟩
    · rw [k1, k2]; exact ⟨rfl, k3⟩

/-- In an iteration that begins, every earlier iteration has been paid for. -/
theorem VerifiedIf.live {H : Ctx X → Prop} {A : Alg X} {Good : X → Prop} {s t : Bool} {K : Cost} {al : Prop}
    (hA : VerifiedIf H A Good s t K al) (hlo : 0 < K.lo) (env : Env X) {P : X → Prop} {sh : Prop} (hH : MetBy H env False P sh) {n : ℕ} (hn : A.Live env n)
    {m : ℕ} (hm : env.maxEvals = some m) (hG : ∀ x, Good x → P x := by intros; trivial) (hR : ∀ rng k x, P (env.repairFn rng k x) := by intros; trivial) : n < m := by
  obtain ⟨ncb, r, hist, w, h, hs, rfl⟩ := hn
  have hc := (hA.trace_count env hH h hG hR).1
  obtain ⟨Inv, hok⟩ := hA
  have hC := hok (env.ctx False P sh) (hH _ (fun _ _ h => h) id rfl (fun _ _ h => h) fun hs => Held.other hs) hG (fun _ => trivial) (fun _ => trivial)
  have hlt : ∀ w : World X, stoppingCondition env.toTaskCfg w.st = false → w.st.evals < m := fun w hs => by
    simp only [stoppingCondition, hm, reached, Bool.or_eq_false_iff, decide_eq_false_iff_not] at hs
    omega
  suffices hp : stoppingCondition env.toTaskCfg w.st = true ∨ (r :: hist).length ≤ w.st.evals + 1 by
    have := hp.resolve_left (by simp [hs])
    have := hlt w hs
    omega
  suffices hs : ∀ hist w, A.Trace env ncb hist w → (stoppingCondition env.toTaskCfg w.st = true ∨ hist.length ≤ w.st.evals + 1) ∧
      ∃ r hist', hist = r :: hist' ∧ Inv (env.ctx False P sh) r.1 (env.opt.mul w.st.xf) ∧ Held sh P (Possible env) r.2.1 r.2.2 from (hs _ _ h).1
  clear hs hc h
  intro hist w h
  induction h with
  | start h =>
    obtain ⟨w1, h1, h2, h3, h4, h5⟩ := start_init h
    have hw1 : CallsOK env w1 := by simp [CallsOK, h3]
    have hb : env.opt.mul w1.st.xf = .pinf := by rw [h2]; simp [TaskSt.init]
    have := wp_sound (env.ctx False P sh) env (.of hR fun _ _ h => h) (Or.inl trivial) _ _ ⟨env.opt.mul w1.st.xf, 0, w1.events⟩ w1 (hC.init _ hb)
      (fun x v hg hf => .of hg ((hw1.run _).possible hf)) rfl rfl
    rw [h1] at this
    obtain ⟨g', ht, hq, -⟩ := this
    obtain ⟨hi, hal, -⟩ := hq _ rfl
    rw [ht.best rfl] at hi
    refine ⟨Or.inr (by simp), _, [], rfl, hi, ?_⟩
    exact getBest_aligned (hal.imp fun _ _ h => h.1) (fun x hx => by cases hx) h4
  | round hprev hs h ih =>
    obtain ⟨w1, w2, h1, h2, h3, h4, -⟩ := round_iter h
    have hw1 : CallsOK env w1 := by have := hprev.calls; unfold CallsOK at this ⊢; rwa [h3]
    obtain ⟨e2, r0, hist', he, hi, hf⟩ := ih
    cases he
    rw [← h2] at hi
    have := wp_sound (env.ctx False P sh) env (.of hR fun _ _ h => h) (Or.inl trivial) _ _ ⟨env.opt.mul w1.st.xf, 0, w1.events⟩ w1
      (hC.iter _ _ _ _ hi hf fun hn => hn.trk.elim) (fun x v hg hf => .of hg ((hw1.run _).possible hf)) rfl rfl
    rw [h1] at this
    obtain ⟨g', ht, hq, -⟩ := this
    obtain ⟨hi', hf', -, hk⟩ := hq _ rfl
    rw [ht.best rfl] at hi'
    have e2 := e2.resolve_left (by simp [hs])
    rw [← h2] at e2
    simp only [List.length_cons] at e2 ⊢
    refine ⟨?_, _, _, rfl, by rw [h4]; simpa [nextIter] using hi', hf'⟩
    rw [h4]
    by_cases hs2 : stoppingCondition env.toTaskCfg w2.st = true
    · have := (C02_stopped_stays env w2 hs2 (Prog.next : Prog X Unit)).1
      rw [Prog.run_next] at this
      exact Or.inl this
    · have h5 : w2.st.evals + 0 = w1.st.evals + g'.c := ht.count_eq (by simpa using hs2)
      have h6 : 0 + K.lo ≤ g'.c := hk.1
      exact Or.inr (by simp only [nextIter]; omega)

variable [Arith] {D : ℕ} {env env' : Env (Vec D)}

theorem Pair.sample (hE : Unlike env env') {B : Box D} : Pair env env' Eq (NiaPy.sample B) (NiaPy.sample B) := step (randVec hE) fun _ => pure' rfl

/-! ### Random search -/

namespace RS

theorem pair_fresh (hE : Unlike env env') {B : Box D} {l : List (Vec D)} (n : ℕ) : Pair env env' Eq (fresh B l n) (fresh B l n) := by
  induction n with
  | zero => exact .throw
  | succ n ih => exact .step (.sample hE) fun x => .ite (fun _ => ih) fun _ => .pure' rfl

theorem pair_generate (hE : Unlike env env') {B : Box D} {fuel n : ℕ} : Pair env env' Eq (generate B fuel n) (generate B fuel n) :=
  .forFinEq fun _ _ => .step (pair_fresh hE fuel) fun _ => .pure' rfl

theorem unguided (hE : Unlike env env') {B : Box D} {fuel : ℕ} :
    Unguided (alg B fuel) env env' fun _ s s' => (s' : St D).x = (s : St D).x ∧ s'.ext = s.ext ∧ TwoVals s.f s'.f where
  init := by
    refine .step (.look hE) fun v => .step (pair_generate hE) fun l => ?_
    rcases l.head? with _ | a
    · exact .throw
    rcases l.getLast? with _ | z
    · exact .throw
    exact .bind' (.eval hE) fun f f' h => .pure' ⟨rfl, rfl, h⟩
  len _ _ _ _ := ⟨rfl, rfl, List.cons_ne_nil _ _, List.cons_ne_nil _ _⟩
  le s s' h := ⟨fun v hv => List.mem_singleton.1 hv ▸ h.2.2.le.1, fun v hv => List.mem_singleton.1 hv ▸ h.2.2.le.2⟩
  iter n _ s s' xb fxb xb' fxb' h := by
    obtain ⟨-, he, -⟩ := h
    show Pair env env' _ (iter s xb fxb) (iter s' xb' fxb')
    unfold iter
    rw [he]
    refine .step (.look hE) fun v => ?_
    rcases (One.ext s)[if v.maxIters.isSome then v.iters else v.evals]? with _ | x
    · exact .throw
    · exact .bind' (.eval hE) fun f f' h => .pure' ⟨rfl, rfl, h⟩

/-- C104 for random search: with the same seed, two tasks with the same limits see the same points in the same order, whatever the objectives are. -/
theorem C104_rs (hE : Unlike env env') (B : Box D) (fuel' : ℕ) (main : Bool) (ncb fuel : ℕ) :
    SameEnd ((alg B fuel').exec env main ncb fuel).1 ((alg B fuel').exec env' main ncb fuel).1 ∧
    ((alg B fuel').exec env' main ncb fuel).2.calls.map (·.1) = ((alg B fuel').exec env main ncb fuel).2.calls.map (·.1) :=
  have h := (unguided hE (B := B) (fuel := fuel')).exec hE main ncb fuel
  ⟨h.1, h.2.1⟩

end RS

/-! ### Glowworm swarm optimization -/

namespace GSO
variable {N : ℕ}

theorem unguided (h0 : (0 : Fl) + 0 = 0) (hE : Unlike env env') {B : Box D} {p : Par D} :
    Unguided (alg B N p) env env' fun n s s' => 0 < N ∧ (s' : St D N).pop = (s : St D N).pop ∧ (n = 0 → ∀ i, TwoVals (s.fit i) (s'.fit i)) where
  init := .bind' (.numpyInit hE) fun r r' h => .pure' ⟨h.2.1, h.1, fun _ => h.2.2⟩
  len n s s' h := by
    have hne : ∀ f : Fin N → Fl, List.ofFn f ≠ [] := fun f => by rw [ne_eq, List.ofFn_eq_nil_iff]; exact h.1.ne'
    exact ⟨by simp [alg], by simp [alg], hne _, hne _⟩
  le s s' h := by
    constructor
    · intro v hv
      obtain ⟨i, rfl⟩ := (List.mem_ofFn' _ _).1 hv
      exact (h.2.2 rfl i).le.1
    · intro v hv
      obtain ⟨i, rfl⟩ := (List.mem_ofFn' _ _).1 hv
      exact (h.2.2 rfl i).le.2
  iter n _ s s' xb fxb xb' fxb' h := by
    obtain ⟨hN, hp, -⟩ := h
    show Pair env env' _ (iter B p s xb fxb) (iter B p s' xb' fxb')
    have hne : ∀ f : Fin N → Fl, List.ofFn f ≠ [] := fun f => by rw [ne_eq, List.ofFn_eq_nil_iff]; exact hN.ne'
    unfold iter
    simp only [(C49_move_false h0 p _ _ _ _).2]
    rw [hp]
    refine .step (.tabEq fun i => .step (.rand hE) fun _ => .intFin hE) fun j => .step (.tabEq fun i => .repair hE) fun pop => .bind' (.evalRows hE) fun f f' hf =>
      .bind' (.getBest (by simp) (hne _) (by simp) (hne _)) fun b b' _ => .pure' ⟨hN, rfl, fun h => absurd h (Nat.succ_ne_zero n)⟩

/-- C104 for glowworm swarm optimization (all variants): the glowworms wander about without any regard to the objective. -/
theorem C104_gso (h0 : (0 : Fl) + 0 = 0) (hE : Unlike env env') (B : Box D) (N : ℕ) (p : Par D) (main : Bool) (ncb fuel : ℕ) :
    SameEnd ((alg B N p).exec env main ncb fuel).1 ((alg B N p).exec env' main ncb fuel).1 ∧
    ((alg B N p).exec env' main ncb fuel).2.calls.map (·.1) = ((alg B N p).exec env main ncb fuel).2.calls.map (·.1) :=
  have h := (unguided h0 hE (B := B) (N := N) (p := p)).exec hE main ncb fuel
  ⟨h.1, h.2.1⟩

end GSO

/-! ### Simulated annealing -/

namespace SA

/-- The temperature after `n` iterations. -/
def temp (p : Par) (m : Option ℕ) : ℕ → Fl
  | 0 => p.t0
  | n + 1 => cool p ⟨0, 0, none, m, false⟩ (temp p m n)

/-- Differences of fitness values are numbers unless both are infinite. -/
structure SubNum : Prop where
  fin : ∀ a b : ℚ, (Fl.fin a - Fl.fin b : Fl) ≠ .nan
  inf : ∀ a : ℚ, (Fl.pinf - Fl.fin a : Fl) ≠ .nan
  neg : ∀ a : ℚ, (Fl.fin a - Fl.pinf : Fl) ≠ .nan

theorem accept_both (h : ExpLaw) (hs : SubNum) {t v v' f f' r : Fl} (ht : Fl.fin 0 < t) (ht' : t ≠ .pinf) (hr : r < Fl.fin 1) (hv : TwoVals v v') (hf : TwoVals f f') :
    accept t (v' - f') r = accept t (v - f) r := by
  have key : ∀ d, d ≠ .nan → accept t d r = true := fun d hd => C37_accept_false h t d r ht ht' hd hr
  rcases hv with ⟨⟨a, rfl⟩, a', rfl⟩ | ⟨rfl, rfl⟩ <;> rcases hf with ⟨⟨b, rfl⟩, b', rfl⟩ | ⟨rfl, rfl⟩
  · rw [key _ (hs.fin _ _), key _ (hs.fin _ _)]
  · rw [key _ (hs.neg _), key _ (hs.neg _)]
  · rw [key _ (hs.inf _), key _ (hs.inf _)]
  · rfl

theorem unguided (h : ExpLaw) (hs : SubNum) (hE : Unlike env env') {B : Box D} {p : Par}
    (hT : ∀ n, (alg B p).Live env n → Fl.fin 0 < temp p env.maxEvals n ∧ temp p env.maxEvals n ≠ .pinf) :
    Unguided (alg B p) env env' fun n s s' => (s' : One D Fl).x = (s : One D Fl).x ∧ s.ext = temp p env.maxEvals n ∧ s'.ext = temp p env.maxEvals n ∧ TwoVals s.f s'.f where
  init := .step (.sample hE) fun x => .bind' (.eval hE) fun f f' h => .pure' ⟨rfl, rfl, rfl, h⟩
  len _ _ _ _ := ⟨rfl, rfl, List.cons_ne_nil _ _, List.cons_ne_nil _ _⟩
  le s s' h := ⟨fun v hv => List.mem_singleton.1 hv ▸ h.2.2.2.le.1, fun v hv => List.mem_singleton.1 hv ▸ h.2.2.2.le.2⟩
  iter n hn s s' xb fxb xb' fxb' hR := by
    obtain ⟨hx, ht, ht', hf⟩ := hR
    show Pair env env' _ (iter p s xb fxb) (iter p s' xb' fxb')
    unfold iter
    rw [hx, ht, ht']
    have hrand : Pair env env' (fun r r' => r' = r ∧ r < Fl.fin 1) (Prog.rand : Prog (Vec D) Fl) Prog.rand := ⟨fun w w' hw => by
      exact .inl ⟨_, _, _, _, Prog.run_lift env .rand w, Prog.run_lift env' .rand w', ⟨by rw [hE.rng, hw.rk], (env.rng.rand_mem _).2⟩, ⟨hw.iters, hw.evals, hw.points, congrArg (· + 1) hw.rk, hw.ek, hw.xf, hw.xf'⟩, rfl⟩⟩
    have hlook : Pair env env' (fun v v' => v' = v ∧ v.maxEvals = env.maxEvals) (Prog.look : Prog (Vec D) TaskView) Prog.look := ⟨fun w w' hw => by
      rw [Prog.run_look, Prog.run_look]
      exact .inl ⟨_, _, _, _, rfl, rfl, ⟨by simp only [hw.iters, hw.evals, hE.maxIters, hE.maxEvals, hw.stopping hE], rfl⟩, hw, rfl⟩⟩
    refine .step (.randVec hE) fun u => .step (.repair hE) fun c => .bind' (.eval hE) fun v v' hv => .bind' hrand fun r r' hr => .bind' hlook fun a a' ha => .pure' ?_
    obtain ⟨rfl, hr⟩ := hr
    obtain ⟨rfl, ha⟩ := ha
    have hc : cool p a' (temp p env.maxEvals n) = temp p env.maxEvals (n + 1) := by simp only [temp, cool, ha]
    rw [accept_both h hs (hT n hn).1 (hT n hn).2 hr hv hf, hc]
    split
    · exact ⟨rfl, rfl, rfl, hv⟩
    · exact ⟨rfl, rfl, rfl, hf⟩

/-- C104 for simulated annealing while the temperature is positive: a random walk that pays no attention to the objective. -/
theorem C104_sa (h : ExpLaw) (hs : SubNum) (hE : Unlike env env') (B : Box D) (p : Par)
    (hT : ∀ n, (alg B p).Live env n → Fl.fin 0 < temp p env.maxEvals n ∧ temp p env.maxEvals n ≠ .pinf) (main : Bool) (ncb fuel : ℕ) :
    SameEnd ((alg B p).exec env main ncb fuel).1 ((alg B p).exec env' main ncb fuel).1 ∧
    ((alg B p).exec env' main ncb fuel).2.calls.map (·.1) = ((alg B p).exec env main ncb fuel).2.calls.map (·.1) :=
  have h := (unguided h hs hE hT).exec hE main ncb fuel
  ⟨h.1, h.2.1⟩

omit [Arith] in
theorem subNum (fn : Fn → Fl → Fl) : @SubNum (exactArith fn) := by
  letI := exactArith fn
  refine ⟨fun a b => ?_, fun a => ?_, fun a => ?_⟩
  · rw [Exact.sub_fin]; simp
  · exact nofun
  · exact nofun

omit [Arith] in
theorem iters_lt {A : Alg X} {env : Env X} {n m : ℕ} (h : A.Live env n) (hm : env.maxIters = some m) : n < m := by
  obtain ⟨ncb, r, hist, w, -, hs, rfl⟩ := h
  simp only [stoppingCondition, hm, reached, Bool.or_eq_false_iff, decide_eq_false_iff_not] at hs
  omega

omit [Arith] in
/-- C104 for simulated annealing with linear cooling, in exact arithmetic: the whole run pays no attention to the objective. -/
theorem C104_sa_linear {fn : Fn → Fl → Fl} (h : @ExpLaw (exactArith fn)) (hE : Unlike env env') (B : Box D) (delta dt : Fl) (t0 : ℚ) (ht : 0 < t0) (main : Bool) (ncb fuel : ℕ) :
    letI := exactArith fn
    let A := alg B ⟨delta, .fin t0, dt, .linear⟩
    SameEnd (A.exec env main ncb fuel).1 (A.exec env' main ncb fuel).1 ∧ (A.exec env' main ncb fuel).2.calls.map (·.1) = (A.exec env main ncb fuel).2.calls.map (·.1) := by
  letI := exactArith fn
  refine C104_sa h (subNum fn) hE B _ (fun n hn => ?_) main ncb fuel
  cases hm : env.maxEvals with
  | none =>
    have : temp ⟨delta, .fin t0, dt, .linear⟩ none n = .fin t0 := by
      clear hn
      induction n with
      | zero => rfl
      | succ n ih =>
        simp only [temp, cool, ih]
        rw [Exact.div_none, Exact.sub_fin, sub_zero]
    rw [this, Fl.fin_lt_fin]
    exact ⟨ht, by simp⟩
  | some m =>
    have hlt : n < m := (verified B (subNeg_exact fn) ⟨delta, .fin t0, dt, .linear⟩).toIf.live (by decide) env (metBy_none _ _) hn hm
    have hm0 : 0 < m := by omega
    have hq : (0 : ℚ) < m := by exact_mod_cast hm0
    have : temp ⟨delta, .fin t0, dt, .linear⟩ (some m) n = .fin (t0 - n * (t0 / m)) := by
      clear hn hlt
      induction n with
      | zero => simp [temp]
      | succ n ih =>
        simp only [temp, cool, ih]
        rw [Exact.div_some fn _ hm0, Exact.sub_fin]
        congr 1
        push_cast
        ring
    rw [this, Fl.fin_lt_fin]
    refine ⟨?_, by simp⟩
    have h1 : (n : ℚ) < m := by exact_mod_cast hlt
    rw [sub_pos, mul_div_assoc', div_lt_iff₀ hq, mul_comm t0]
    exact mul_lt_mul_of_pos_right h1 ht

omit [Arith] in
/-- C104 for simulated annealing with the default cooling, in exact arithmetic, if the limit `m` on the iterations or evaluations is reached before the temperature is 0. -/
theorem C104_sa_delta {fn : Fn → Fl → Fl} (h : @ExpLaw (exactArith fn)) (hE : Unlike env env') (B : Box D) (delta : Fl) (t0 dt : ℚ) (ht : 0 < t0) (hd : 0 ≤ dt) {m : ℕ}
    (hm : env.maxIters = some m ∨ env.maxEvals = some m) (hle : m * dt ≤ t0) (main : Bool) (ncb fuel : ℕ) :
    letI := exactArith fn
    let A := alg B ⟨delta, .fin t0, .fin dt, .delta⟩
    SameEnd (A.exec env main ncb fuel).1 (A.exec env' main ncb fuel).1 ∧ (A.exec env' main ncb fuel).2.calls.map (·.1) = (A.exec env main ncb fuel).2.calls.map (·.1) := by
  letI := exactArith fn
  refine C104_sa h (subNum fn) hE B _ (fun n hn => ?_) main ncb fuel
  have hlt : n < m := by
    rcases hm with hm | hm
    · exact iters_lt hn hm
    · exact (verified B (subNeg_exact fn) ⟨delta, .fin t0, .fin dt, .delta⟩).toIf.live (by decide) env (metBy_none _ _) hn hm
  have : ∀ k, temp ⟨delta, .fin t0, .fin dt, .delta⟩ k n = .fin (t0 - n * dt) := by
    intro k
    clear hn hlt
    induction n with
    | zero => simp [temp]
    | succ n ih =>
      simp only [temp, cool, ih]
      rw [Exact.sub_fin]
      congr 1
      push_cast
      ring
  rw [this, Fl.fin_lt_fin]
  refine ⟨?_, by simp⟩
  rcases hd.eq_or_lt with rfl | hd
  · simpa using ht
  · have h1 : (n : ℚ) < m := by exact_mod_cast hlt
    have := mul_lt_mul_of_pos_right h1 hd
    linarith

end SA

/-! ### Examples -/

namespace Ex

/-- The coordinate of the point, or minus its square. -/
def coord (square : Bool) : ℕ → Vec 1 → Except PyErr Fl := fun _ x => .ok (match x 0 with | .fin q => .fin (if square then -(q * q) else q) | _ => .fin 0)

/-- Minimizing the coordinate, maximizing minus the square. -/
def coordEnv (square : Bool) (me mi : Option ℕ) : Env (Vec 1) :=
  NiaPy.Ex.env (coord square) (if square then .maximization else .minimization) me mi none NiaPy.Ex.draws fun _ _ x i => clip1 (x i)

omit [Arith] in
theorem coordEnv_plain (square : Bool) (me mi : Option ℕ) : (coordEnv square me mi).Plain where
  obj k x := by
    show ∃ q, coord square k x = _ ∧ _
    unfold coord
    split
    · exact ⟨_, rfl, by cases square <;> exact nofun⟩
    · exact ⟨_, rfl, by cases square <;> exact nofun⟩
  cutoff := by cases square <;> exact nofun
  callback _ _ _ := rfl

omit [Arith] in
/-- The hypothesis of C104: two tasks with nothing in common except the limits, the seed and the repair function. -/
theorem unlike (me mi : Option ℕ) : Unlike (coordEnv false me mi) (coordEnv true me mi) :=
  ⟨coordEnv_plain _ _ _, coordEnv_plain _ _ _, rfl, rfl, rfl, rfl, rfl⟩

/-- Two particles in one dimension. -/
def swarm : Alg (Vec 1) := @PSO.alg Ex.arith 1 (Ex.box 1) 2 ⟨.fin (3 / 2), .fin (3 / 2), fun _ => .fin (1 / 2), fun _ => .ninf, fun _ => .pinf, fun v _ _ => v⟩ false false 0

end Ex

omit [Arith] in
/-- C104 does not hold of particle swarm optimization: minimizing the coordinate and maximizing minus its square leads to different points. -/
theorem PSO.C104_pso_false : Unlike (Ex.coordEnv false none (some 3)) (Ex.coordEnv true none (some 3)) ∧
    (Ex.swarm.exec (Ex.coordEnv true none (some 3)) true 0 10).2.calls.map (·.1) ≠ (Ex.swarm.exec (Ex.coordEnv false none (some 3)) true 0 10).2.calls.map (·.1) :=
  ⟨Ex.unlike _ _, by decide +kernel⟩

/-- The theorems apply to runs of three iterations. -/
example : (letI := Ex.arith; (GSO.alg (Ex.box 1) 2 (GSO.base ⟨5, lit 2 5, lit 3 5, lit 2 25, lit 1 5, lit 1 5⟩ 5 (lit 3 100) euclid)).okIters (Ex.coordEnv false none (some 3)) 1 5) = some 3 ∧
    (letI := SA.Ex.arith; (SA.alg (Ex.box 1) ⟨.fin (1 / 2), .fin 2000, .fin (4 / 5), .delta⟩).okIters (Ex.coordEnv false none (some 3)) 1 5) = some 3 ∧
    (letI := SA.Ex.arith; (SA.alg (Ex.box 1) ⟨.fin (1 / 2), .fin 2000, .fin (4 / 5), .linear⟩).okIters (Ex.coordEnv true (some 4) none) 1 5) = some 3 := by
  decide +kernel

/-- The hypotheses on the exponential function, the temperature and the limit hold of the default parameters with three iterations. -/
example (main : Bool) (ncb fuel : ℕ) := SA.C104_sa_delta SA.Ex.expLaw (Ex.unlike none (some 3)) (Ex.box 1) (.fin (1 / 2)) 2000 (4 / 5) (by norm_num) (by norm_num)
  (m := 3) (.inl rfl) (by norm_num) main ncb fuel

end NiaPy
