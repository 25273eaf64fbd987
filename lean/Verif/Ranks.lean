import Verif.Duality
import Verif.Alg
import Verif.PopTools
import Verif.Congr

/-!
# C96: what depends on the order of fitness values only

An objective is replaced by a strictly increasing function of it. Algorithms that only compare fitness values evaluate the same points
then, draw the same random numbers and return the same solution.
-/

namespace NiaPy
variable {X α β γ δ σ : Type}

/-- A strictly increasing function on floats that keeps `inf` and NaN. -/
structure Gauge (G : Fl → Fl) : Prop where
  lt : ∀ a b, G a < G b ↔ a < b
  le : ∀ a b, G a ≤ G b ↔ a ≤ b
  nan : ∀ a, G a = .nan ↔ a = .nan
  pinf : G .pinf = .pinf

/-- A function on finite floats, extended by the identity. -/
def Fl.lift (h : ℚ → ℚ) : Fl → Fl
  | .fin q => .fin (h q)
  | v => v

/-- Strictly increasing functions of finite numbers are gauges. -/
theorem Gauge.lift {h : ℚ → ℚ} (hm : StrictMono h) : Gauge (Fl.lift h) := by
  refine ⟨fun a b => ?_, fun a b => ?_, fun a => ?_, rfl⟩
  · cases a <;> cases b <;> simp [Fl.lift, hm.lt_iff_lt]
  · cases a <;> cases b <;> simp [Fl.lift, hm.le_iff_le]
  · cases a <;> simp [Fl.lift]

theorem Gauge.inj {G : Fl → Fl} (hG : Gauge G) {a b : Fl} : G a = G b ↔ a = b := by
  refine ⟨fun h => ?_, fun h => h ▸ rfl⟩
  by_cases ha : a = .nan
  · rw [ha, ← (hG.nan b).1 (by rw [← h]; exact (hG.nan a).2 ha)]
  · have hb : b ≠ .nan := fun hb => ha ((hG.nan a).1 (h.trans ((hG.nan b).2 hb)))
    have hga : G a ≠ .nan := fun h => ha ((hG.nan a).1 h)
    exact Fl.le_antisymm ((hG.le a b).1 (h ▸ Fl.le_refl hga)) ((hG.le b a).1 (h ▸ Fl.le_refl hga))

/-- The transformation as seen from the objective, which is multiplied by the optimization type. -/
def OptType.conj (t : OptType) (G : Fl → Fl) (v : Fl) : Fl := t.mul (G (t.mul v))

/-- Transformed fitness values in what a callback is shown. -/
def Event.rescale (G : Fl → Fl) : Event X → Event X
  | .beforeRun => .beforeRun
  | .beforeIteration pop fpop xb fxb => .beforeIteration pop (fpop.map G) xb (G fxb)
  | .afterIteration pop fpop xb fxb => .afterIteration pop (fpop.map G) xb (G fxb)
  | .afterRun => .afterRun

/-- Transformed results of the objective. -/
def rescaleRes (G : Fl → Fl) : Except PyErr Fl → Except PyErr Fl
  | .ok r => .ok (G r)
  | .error e => .error e

/-- `env'` is `env` with objective and cutoff value transformed. Callbacks must not depend on the scale of fitness values, nor sorting (which
compares). -/
structure Rescaled (G : Fl → Fl) (env env' : Env X) : Prop where
  obj : ∀ k x, env'.obj k x = rescaleRes (env.opt.conj G) (env.obj k x)
  opt : env'.opt = env.opt
  maxEvals : env'.maxEvals = env.maxEvals
  maxIters : env'.maxIters = env.maxIters
  cutoff : env'.cutoff = env.opt.conj G env.cutoff
  repairFn : env'.repairFn = env.repairFn
  rng : env'.rng = env.rng
  entropy : env'.entropy = env.entropy
  callback : ∀ i k e, env'.callback i k (e.rescale G) = env.callback i k e
  argsort : ∀ k l, env.rng.argsort k (l.map G) = env.rng.argsort k l

/-- Two executions that have gone the same way so far. -/
structure Aligned (G : Fl → Fl) (t : OptType) (w w' : World X) : Prop where
  iters : w'.st.iters = w.st.iters
  evals : w'.st.evals = w.st.evals
  xf : w'.st.xf = t.conj G w.st.xf
  nEvals : w'.st.nEvals = w.st.nEvals
  fitnessEvals : w'.st.fitnessEvals = w.st.fitnessEvals.map G
  fitnessIters : w'.st.fitnessIters = w.st.fitnessIters.map (t.conj G)
  calls : w'.calls = w.calls.map fun c => (c.1, rescaleRes (t.conj G) c.2)
  events : w'.events = w.events.map fun e => (e.1, e.2.rescale G)
  rk : w'.rk = w.rk
  ek : w'.ek = w.ek

variable {G : Fl → Fl} {env env' : Env X}

theorem Aligned.init (hG : Gauge G) (t : OptType) : Aligned G t (World.init t : World X) (World.init t) := by
  constructor <;> simp [World.init, TaskSt.init, OptType.conj, hG.pinf]

theorem OptType.mul_conj (t : OptType) (v : Fl) : t.mul (t.conj G v) = G (t.mul v) := by simp [OptType.conj]

theorem Aligned.stopping (hG : Gauge G) (hE : Rescaled G env env') {w w' : World X} (h : Aligned G env.opt w w') :
    stoppingCondition env'.toTaskCfg w'.st = stoppingCondition env.toTaskCfg w.st := by
  simp only [stoppingCondition, h.evals, h.iters, h.xf, hE.opt, hE.maxEvals, hE.maxIters, hE.cutoff, OptType.mul_conj, hG.le]

/-! ### Programs that go the same way -/

/-- In aligned worlds `q`, run in `env'`, does what `p` does in `env`: it raises the same exception or returns `φ` of the result, and the worlds
stay aligned. -/
structure Follows (G : Fl → Fl) (env env' : Env X) (φ : α → β) (p : Prog X α) (q : Prog X β) : Prop where
  out : ∀ w w', Aligned G env.opt w w' → (∃ a w1 w1', p.run env w = (.ok a, w1) ∧ q.run env' w' = (.ok (φ a), w1') ∧ Aligned G env.opt w1 w1') ∨
    ∃ e w1 w1', p.run env w = (.error e, w1) ∧ q.run env' w' = (.error e, w1') ∧ Aligned G env.opt w1 w1'

/-- A program that evaluates nothing and calls no callback. -/
def Prog.Blind : Prog X α → Prop
  | .pure _ => True
  | .throw _ => True
  | .op (.eval _) _ => False
  | .op (.fire _ _) _ => False
  | .op _ k => ∀ r, (k r).Blind

namespace Prog.Blind

theorem bind {p : Prog X α} {f : α → Prog X β} (hp : p.Blind) (hf : ∀ a, (f a).Blind) : (p.bind f).Blind := by
  induction p with
  | pure a => exact hf a
  | throw e => trivial
  | op o k ih => cases o <;> first | exact fun r => ih r (hp r) | exact hp

theorem bind' {p : Prog X α} {f : α → Prog X β} (hp : p.Blind) (hf : ∀ a, (f a).Blind) : (p >>= f).Blind := bind hp hf
theorem pure' {a : α} : (Pure.pure a : Prog X α).Blind := trivial
theorem throw' {e : PyErr} : (.throw e : Prog X α).Blind := trivial
theorem ofExcept {r : Except PyErr α} : (Prog.ofExcept r : Prog X α).Blind := by cases r <;> trivial
theorem rand : (Prog.rand : Prog X Fl).Blind := fun _ => ofExcept
theorem look : (Prog.look : Prog X TaskView).Blind := fun _ => ofExcept
theorem unif {a b : Fl} : (Prog.unif a b : Prog X Fl).Blind := fun _ => ofExcept
theorem dist {d : Dist} {a b : Fl} : (Prog.dist d a b : Prog X Fl).Blind := fun _ => ofExcept
theorem norm {a b : Fl} : (Prog.norm a b : Prog X Fl).Blind := fun _ => ofExcept
theorem int {n : ℕ} : (Prog.int n : Prog X ℕ).Blind := fun _ => ofExcept
theorem perm {n : ℕ} : (Prog.perm n : Prog X (List ℕ)).Blind := fun _ => ofExcept
theorem argsort {l : List Fl} : (Prog.argsort l : Prog X (List ℕ)).Blind := fun _ => ofExcept
theorem repair {x : X} {s : Bool} : (Prog.repair x s : Prog X X).Blind := fun _ => ofExcept

theorem tabM {n : ℕ} {f : Fin n → Prog X α} (h : ∀ i, (f i).Blind) : (NiaPy.tabM n f).Blind := by
  induction n with
  | zero => trivial
  | succ n ih => exact bind (h 0) fun a => bind (ih fun i => h i.succ) fun r => trivial

theorem mapM' {l : List β} {f : β → Prog X α} (h : ∀ b, (f b).Blind) : (NiaPy.mapM' l f).Blind := by
  induction l with
  | nil => trivial
  | cons b l ih => exact bind (h b) fun a => bind ih fun r => trivial

theorem forFin {n : ℕ} {f : Fin n → σ → Prog X σ} {s : σ} (h : ∀ i s, (f i s).Blind) : (NiaPy.forFin n f s).Blind := by
  induction n generalizing s with
  | zero => trivial
  | succ n ih => exact bind (h 0 s) fun a => ih fun i s => h i.succ s

theorem forList {l : List β} {f : β → σ → Prog X σ} {s : σ} (h : ∀ i s, (f i s).Blind) : (NiaPy.forList l f s).Blind := by
  induction l generalizing s with
  | nil => trivial
  | cons b l ih => exact bind (h b s) fun a => ih

theorem intFin {n : ℕ} : (NiaPy.intFin n : Prog X (Fin n)).Blind := bind int fun k => by split <;> trivial

end Prog.Blind

/-- Further blind programs, to be extended with `macro_rules`. -/
syntax "blind_step" : tactic
macro_rules | `(tactic| blind_step) => `(tactic| fail "no rule")

/-- Proves that a program evaluates nothing. -/
macro "blind" : tactic => `(tactic| repeat' first
  | assumption
  | intro _
  | exact Prog.Blind.pure'
  | exact Prog.Blind.throw'
  | exact Prog.Blind.ofExcept
  | exact Prog.Blind.rand
  | exact Prog.Blind.look
  | exact Prog.Blind.unif
  | exact Prog.Blind.dist
  | exact Prog.Blind.norm
  | exact Prog.Blind.int
  | exact Prog.Blind.perm
  | exact Prog.Blind.argsort
  | exact Prog.Blind.repair
  | exact Prog.Blind.intFin
  | apply Prog.Blind.tabM
  | apply Prog.Blind.mapM'
  | apply Prog.Blind.forFin
  | apply Prog.Blind.forList
  | blind_step
  | apply Prog.Blind.bind'
  | apply Prog.Blind.bind
  | split
  | dsimp only)

namespace Prog.Blind

theorem permIdx {n : ℕ} : (NiaPy.permIdx n : Prog X (Fin n → Fin n)).Blind := by unfold NiaPy.permIdx; blind
theorem sortIdx {n : ℕ} {fs : Fin n → Fl} : (NiaPy.sortIdx fs : Prog X (Fin n → Fin n)).Blind := by unfold NiaPy.sortIdx; blind
theorem scaleIdx {n : ℕ} : (NiaPy.scaleIdx n : Prog X (Fin n)).Blind := by unfold NiaPy.scaleIdx; blind
macro_rules | `(tactic| blind_step) => `(tactic| exact Prog.Blind.permIdx)
macro_rules | `(tactic| blind_step) => `(tactic| exact Prog.Blind.sortIdx)
macro_rules | `(tactic| blind_step) => `(tactic| exact Prog.Blind.scaleIdx)
theorem choiceFin {n k : ℕ} : (NiaPy.choiceFin n k : Prog X (Fin k → Fin n)).Blind := by unfold NiaPy.choiceFin; blind
theorem choiceRep {n k : ℕ} : (NiaPy.choiceRep n k : Prog X (Fin k → Fin n)).Blind := by unfold NiaPy.choiceRep; blind
theorem choiceOther {n k : ℕ} {ic : Fin n} : (NiaPy.choiceOther n k ic : Prog X (Fin k → Fin n)).Blind := by unfold NiaPy.choiceOther; blind
theorem randVec {n : ℕ} : (NiaPy.randVec n : Prog X (Vec n)).Blind := by unfold NiaPy.randVec; blind
theorem normVec {n : ℕ} {a b : Fl} : (NiaPy.normVec n a b : Prog X (Vec n)).Blind := by unfold NiaPy.normVec; blind
theorem unifVec {n : ℕ} {a b : Vec n} : (NiaPy.unifVec a b : Prog X (Vec n)).Blind := by unfold NiaPy.unifVec; blind
theorem repairRows {n : ℕ} {pop : Fin n → X} {s : Bool} : (NiaPy.repairRows pop s).Blind := by unfold NiaPy.repairRows; blind
theorem levyVec [Arith] {n : ℕ} {a : Fl} : (NiaPy.levyVec n a : Prog X (Vec n)).Blind := by unfold NiaPy.levyVec; blind
macro_rules | `(tactic| blind_step) => `(tactic| exact Prog.Blind.choiceFin)
macro_rules | `(tactic| blind_step) => `(tactic| exact Prog.Blind.choiceRep)
macro_rules | `(tactic| blind_step) => `(tactic| exact Prog.Blind.choiceOther)
macro_rules | `(tactic| blind_step) => `(tactic| exact Prog.Blind.randVec)
macro_rules | `(tactic| blind_step) => `(tactic| exact Prog.Blind.normVec)
macro_rules | `(tactic| blind_step) => `(tactic| exact Prog.Blind.unifVec)
macro_rules | `(tactic| blind_step) => `(tactic| exact Prog.Blind.repairRows)
macro_rules | `(tactic| blind_step) => `(tactic| exact Prog.Blind.levyVec)

end Prog.Blind

namespace Follows

theorem pure' {φ : α → β} {a : α} {b : β} (h : b = φ a) : Follows G env env' φ (Pure.pure a) (Pure.pure b) :=
  ⟨fun w w' hw => .inl ⟨a, w, w', rfl, by rw [h]; rfl, hw⟩⟩

theorem throw {φ : α → β} {e : PyErr} : Follows G env env' φ (.throw e) (.throw e) := ⟨fun w w' hw => .inr ⟨e, w, w', rfl, rfl, hw⟩⟩

theorem bind {φ : α → β} {ψ : γ → δ} {p : Prog X α} {q : Prog X β} {f : α → Prog X γ} {k : β → Prog X δ} (h : Follows G env env' φ p q)
    (hf : ∀ a, Follows G env env' ψ (f a) (k (φ a))) : Follows G env env' ψ (p.bind f) (q.bind k) := ⟨fun w w' hw => by
  rw [Prog.run_bind, Prog.run_bind]
  rcases h.out w w' hw with ⟨a, w1, w1', h1, h2, h3⟩ | ⟨e, w1, w1', h1, h2, h3⟩
  · rw [h1, h2]; exact (hf a).out w1 w1' h3
  · rw [h1, h2]; exact .inr ⟨e, w1, w1', rfl, rfl, h3⟩⟩

theorem bind' {φ : α → β} {ψ : γ → δ} {p : Prog X α} {q : Prog X β} {f : α → Prog X γ} {k : β → Prog X δ} (h : Follows G env env' φ p q)
    (hf : ∀ a, Follows G env env' ψ (f a) (k (φ a))) : Follows G env env' ψ (p >>= f) (q >>= k) := bind h hf

theorem mono {φ φ' : α → β} {p : Prog X α} {q : Prog X β} (h : Follows G env env' φ p q) (e : ∀ a, φ a = φ' a) : Follows G env env' φ' p q := funext e ▸ h

theorem ofExcept {φ : α → β} {r : Except PyErr α} {r' : Except PyErr β} (h : r' = r.map φ) : Follows G env env' φ (Prog.ofExcept r) (Prog.ofExcept r') := by
  subst h
  cases r with
  | error e => exact throw
  | ok a => exact pure' rfl

theorem ite {φ : α → β} {c c' : Prop} [Decidable c] [Decidable c'] {p p' : Prog X α} {q q' : Prog X β} (hc : c' ↔ c) (h : c → Follows G env env' φ p q)
    (h' : ¬ c → Follows G env env' φ p' q') : Follows G env env' φ (if c then p else p') (if c' then q else q') := by
  by_cases hh : c
  · rw [if_pos hh, if_pos (hc.2 hh)]; exact h hh
  · rw [if_neg hh, if_neg fun h => hh (hc.1 h)]; exact h' hh

theorem eval (hG : Gauge G) (hE : Rescaled G env env') {x : X} : Follows G env env' G (Prog.eval x) (Prog.eval x) := ⟨fun w w' h => by
  rw [Prog.run_eval, Prog.run_eval]
  have hst := h.stopping hG hE
  rcases evalTask_cases env.toTaskCfg w.st x with ⟨hs, he⟩ | ⟨hs, e, ho, he⟩ | ⟨hs, r, ho, he⟩
  · have he' : evalTask env'.toTaskCfg w'.st x = (.ok .pinf, w'.st, []) := by simp [evalTask, hst, hs]
    rw [he, he']
    refine .inl ⟨_, _, _, rfl, by rw [hG.pinf], ?_⟩
    constructor <;> simp [h.iters, h.evals, h.xf, h.nEvals, h.fitnessEvals, h.fitnessIters, h.calls, h.events, h.rk, h.ek]
  · have ho' : env'.obj w'.st.evals x = .error e := by rw [hE.obj, h.evals, ho]; rfl
    have he' : evalTask env'.toTaskCfg w'.st x = (.error e, { w'.st with evals := w'.st.evals + 1 }, [(x, .error e)]) := by simp [evalTask, hst, hs, ho']
    rw [he, he']
    refine .inr ⟨e, _, _, rfl, rfl, ?_⟩
    constructor <;> simp [h.iters, h.evals, h.xf, h.nEvals, h.fitnessEvals, h.fitnessIters, h.calls, h.events, h.rk, h.ek, rescaleRes]
  · have ho' : env'.obj w'.st.evals x = .ok (env.opt.conj G r) := by rw [hE.obj, h.evals, ho]; rfl
    have he' : evalTask env'.toTaskCfg w'.st x = (.ok (G (env.opt.mul r)), record env.opt { w'.st with evals := w'.st.evals + 1 } (G (env.opt.mul r)),
        [(x, .ok (env.opt.conj G r))]) := by
      simp [evalTask, hst, hs, ho', hE.opt, OptType.mul_conj]
    rw [he, he']
    refine .inl ⟨_, _, _, rfl, rfl, ?_⟩
    have hlt : G (env.opt.mul r) < env.opt.mul w'.st.xf ↔ env.opt.mul r < env.opt.mul w.st.xf := by rw [h.xf, OptType.mul_conj, hG.lt]
    by_cases hl : env.opt.mul r < env.opt.mul w.st.xf
    · rw [record, record, if_pos hl, if_pos (hlt.2 hl)]
      constructor <;> simp [h.iters, h.evals, h.nEvals, h.fitnessEvals, h.fitnessIters, h.calls, h.events, h.rk, h.ek, rescaleRes, OptType.conj]
    · rw [record, record, if_neg hl, if_neg (mt hlt.1 hl)]
      constructor <;> simp [h.iters, h.evals, h.xf, h.nEvals, h.fitnessEvals, h.fitnessIters, h.calls, h.events, h.rk, h.ek, rescaleRes, OptType.conj]⟩

theorem next : Follows G env env' (fun _ => ()) (Prog.next : Prog X Unit) Prog.next := ⟨fun w w' h => by
  refine .inl ⟨(), { w with st := nextIter w.st }, { w' with st := nextIter w'.st }, rfl, rfl, ?_⟩
  constructor <;> simp [nextIter, h.iters, h.evals, h.xf, h.nEvals, h.fitnessEvals, h.fitnessIters, h.calls, h.events, h.rk, h.ek]⟩

theorem fire (hE : Rescaled G env env') {i : ℕ} {e : Event X} : Follows G env env' (fun _ => ()) (Prog.fire i e) (Prog.fire i (e.rescale G)) := ⟨fun w w' h => by
  have hc := hE.callback i w.events.length e
  have hl : w'.events.length = w.events.length := by rw [h.events, List.length_map]
  have hal : Aligned G env.opt { w with events := w.events ++ [(i, e)] } { w' with events := w'.events ++ [(i, e.rescale G)] } := by
    constructor <;> simp [h.iters, h.evals, h.xf, h.nEvals, h.fitnessEvals, h.fitnessIters, h.calls, h.events, h.rk, h.ek]
  simp only [Prog.fire, Prog.lift, Prog.run, stepOp, hl, hc]
  cases hr : env.callback i w.events.length e with
  | error e => exact .inr ⟨e, _, _, rfl, rfl, hal⟩
  | ok u => exact .inl ⟨u, _, _, rfl, rfl, hal⟩⟩

/-- Whatever evaluates nothing goes the same way. -/
theorem blind (hG : Gauge G) (hE : Rescaled G env env') {p : Prog X α} (hp : p.Blind) : Follows G env env' id p p := ⟨fun w w' h => by
  induction p generalizing w w' with
  | pure a => exact .inl ⟨a, w, w', rfl, rfl, h⟩
  | throw e => exact .inr ⟨e, w, w', rfl, rfl, h⟩
  | op o k ih =>
    have key : (stepOp env' w' o).1 = (stepOp env w o).1 → Aligned G env.opt (stepOp env w o).2 (stepOp env' w' o).2 → (∀ r, (k r).Blind) →
        (∃ a w1 w1', (Prog.op o k).run env w = (.ok a, w1) ∧ (Prog.op o k).run env' w' = (.ok (id a), w1') ∧ Aligned G env.opt w1 w1') ∨
        ∃ e w1 w1', (Prog.op o k).run env w = (.error e, w1) ∧ (Prog.op o k).run env' w' = (.error e, w1') ∧ Aligned G env.opt w1 w1' := by
      intro h1 h2 h3
      simp only [Prog.run, h1]
      exact ih _ (h3 _) _ _ h2
    cases o with
    | eval x => exact hp.elim
    | fire i e => exact hp.elim
    | nextIter =>
      refine key rfl ?_ hp
      simp only [stepOp]
      constructor <;> simp [nextIter, h.iters, h.evals, h.xf, h.nEvals, h.fitnessEvals, h.fitnessIters, h.calls, h.events, h.rk, h.ek]
    | look =>
      refine key ?_ h hp
      simp only [stepOp, h.stopping hG hE, h.iters, h.evals, hE.maxIters, hE.maxEvals]
    | int n =>
      refine key ?_ ?_ hp <;> simp only [stepOp] <;> split
      · rfl
      · rw [hE.rng, h.rk]
      · exact h
      · constructor <;> simp [h.iters, h.evals, h.xf, h.nEvals, h.fitnessEvals, h.fitnessIters, h.calls, h.events, h.rk, h.ek]
    | unif lo hi =>
      refine key ?_ ?_ hp <;> simp only [stepOp] <;> split
      · rfl
      · rw [hE.rng, h.rk]
      · exact h
      · constructor <;> simp [h.iters, h.evals, h.xf, h.nEvals, h.fitnessEvals, h.fitnessIters, h.calls, h.events, h.rk, h.ek]
    | dist d a b =>
      refine key ?_ ?_ hp <;> simp only [stepOp] <;> split
      · rfl
      · rw [hE.rng, h.rk]
      · exact h
      · constructor <;> simp [h.iters, h.evals, h.xf, h.nEvals, h.fitnessEvals, h.fitnessIters, h.calls, h.events, h.rk, h.ek]
    | repair b x =>
      cases b <;>
      · refine key (by simp only [stepOp, hE.repairFn, hE.rng, hE.entropy, h.rk, h.ek]) ?_ hp
        simp only [stepOp]
        constructor <;> simp [h.iters, h.evals, h.xf, h.nEvals, h.fitnessEvals, h.fitnessIters, h.calls, h.events, h.rk, h.ek]
    | _ =>
      refine key (by simp only [stepOp, hE.rng, h.rk]) ?_ hp
      simp only [stepOp]
      constructor <;> simp [h.iters, h.evals, h.xf, h.nEvals, h.fitnessEvals, h.fitnessIters, h.calls, h.events, h.rk, h.ek]⟩

/-- Sorting by fitness. -/
theorem argsort (hE : Rescaled G env env') {l : List Fl} : Follows G env env' id (Prog.argsort l : Prog X (List ℕ)) (Prog.argsort (l.map G)) := ⟨fun w w' h => by
  refine .inl ⟨env.rng.argsort w.rk l, { w with rk := w.rk + 1 }, { w' with rk := w'.rk + 1 }, rfl, ?_, ?_⟩
  · change (Except.ok (env'.rng.argsort w'.rk (l.map G)), { w' with rk := w'.rk + 1 }) = _
    rw [hE.rng, h.rk, hE.argsort]
    rfl
  · constructor <;> simp [stepOp, h.iters, h.evals, h.xf, h.nEvals, h.fitnessEvals, h.fitnessIters, h.calls, h.events, h.rk, h.ek]⟩

/-- Programs that begin with a blind part. -/
theorem step {ψ : γ → δ} {p : Prog X α} {f : α → Prog X γ} {k : α → Prog X δ} (hG : Gauge G) (hE : Rescaled G env env') (hp : p.Blind)
    (hf : ∀ a, Follows G env env' ψ (f a) (k a)) : Follows G env env' ψ (p >>= f) (p >>= k) := bind' (blind hG hE hp) hf

theorem tabM {φ : α → β} {n : ℕ} {f : Fin n → Prog X α} {k : Fin n → Prog X β} (h : ∀ i, Follows G env env' φ (f i) (k i)) :
    Follows G env env' (fun r i => φ (r i)) (NiaPy.tabM n f) (NiaPy.tabM n k) := by
  induction n with
  | zero => exact pure' (funext fun i => i.elim0)
  | succ n ih =>
    refine bind (h 0) fun a => bind (ih fun i => h i.succ) fun r => pure' (funext fun i => ?_)
    refine Fin.cases ?_ (fun i => ?_) i <;> rfl

theorem mapM' {ι ι' : Type} {φ : α → β} {j : ι → ι'} {l : List ι} {f : ι → Prog X α} {k : ι' → Prog X β} (h : ∀ i, Follows G env env' φ (f i) (k (j i))) :
    Follows G env env' (List.map φ) (NiaPy.mapM' l f) (NiaPy.mapM' (l.map j) k) := by
  induction l with
  | nil => exact pure' rfl
  | cons i l ih => exact bind (h i) fun a => bind ih fun r => pure' rfl

theorem mapMS {ι : Type} {φ : α → β} {l : List ι} {f : ι → Prog X α} {k : ι → Prog X β} (h : ∀ i, Follows G env env' φ (f i) (k i)) :
    Follows G env env' (List.map φ) (NiaPy.mapM' l f) (NiaPy.mapM' l k) := by
  have := mapM' (j := id) (l := l) h
  rwa [List.map_id] at this

theorem forFin {τ : Type} {φ : σ → τ} {n : ℕ} {f : Fin n → σ → Prog X σ} {k : Fin n → τ → Prog X τ} {s : σ} (h : ∀ i s, Follows G env env' φ (f i s) (k i (φ s))) :
    Follows G env env' φ (NiaPy.forFin n f s) (NiaPy.forFin n k (φ s)) := by
  induction n generalizing s with
  | zero => exact pure' rfl
  | succ n ih => exact bind (h 0 s) fun a => ih fun i => h i.succ

theorem forList {ι τ : Type} {φ : σ → τ} {l : List ι} {f : ι → σ → Prog X σ} {k : ι → τ → Prog X τ} {s : σ} (h : ∀ i s, Follows G env env' φ (f i s) (k i (φ s))) :
    Follows G env env' φ (NiaPy.forList l f s) (NiaPy.forList l k (φ s)) := by
  induction l generalizing s with
  | nil => exact pure' rfl
  | cons i l ih => exact bind (h i s) fun a => ih

end Follows

/-! ### Comparisons -/

/-- A function that keeps the order and NaN. -/
structure Keeps (H : Fl → Fl) : Prop where
  lt : ∀ a b, H a < H b ↔ a < b
  nan : ∀ a, H a = .nan ↔ a = .nan

theorem Gauge.keeps (hG : Gauge G) : Keeps G := ⟨hG.lt, hG.nan⟩

theorem Gauge.keepsNeg (hG : Gauge G) : Keeps fun v => -G (-v) :=
  ⟨fun a b => by rw [Fl.neg_lt_neg, hG.lt, Fl.neg_lt_neg], fun a => by
    rw [Fl.neg_eq_nan, hG.nan, Fl.neg_eq_nan]⟩

theorem argminGo_map {H : Fl → Fl} (hH : Keeps H) (cur : Fl) (ci i : ℕ) (l : List Fl) : argminGo (H cur) ci i (l.map H) = argminGo cur ci i l := by
  induction l generalizing cur ci i with
  | nil => rfl
  | cons v l ih => simp only [List.map_cons, argminGo, hH.nan, hH.lt, ih]

theorem argmin_map {H : Fl → Fl} (hH : Keeps H) (l : List Fl) : argmin (l.map H) = argmin l := by
  cases l with
  | nil => rfl
  | cons v l => simp only [List.map_cons, argmin, argminGo_map hH]

/-- A solution with its fitness, transformed. -/
def scaleF (G : Fl → Fl) (b : X × Fl) : X × Fl := (b.1, G b.2)

theorem getBest_map (hG : Gauge G) (pop : List X) (fit : List Fl) (xb : Option X) (fxb : Fl) :
    getBest pop (fit.map G) xb (G fxb) = (getBest pop fit xb fxb).map (scaleF G) := by
  unfold getBest
  rw [argmin_map hG.keeps]
  cases argmin fit with
  | error e => rfl
  | ok ib =>
    simp only [List.getElem?_map]
    cases fit[ib]? with
    | none => rfl
    | some f =>
      simp only [Option.map_some, hG.le]
      split
      · cases pop[ib]? <;> rfl
      · cases xb <;> rfl

theorem Follows.getBest (hG : Gauge G) {pop : List X} {fit : List Fl} {xb : X} {fxb : Fl} :
    Follows G env env' (scaleF G) (Prog.getBest pop fit xb fxb) (Prog.getBest pop (fit.map G) xb (G fxb)) := .ofExcept (getBest_map hG _ _ _ _)

theorem getBest1_map (hG : Gauge G) (x : X) (f : Fl) (xb : X) (fxb : Fl) : getBest1 x (G f) xb (G fxb) = scaleF G (getBest1 x f xb fxb) := by
  unfold getBest1
  simp only [hG.le]
  split <;> rfl

theorem betterLt_map (hG : Gauge G) (x : X) (f : Fl) (xb : X) (fxb : Fl) : betterLt x (G f) xb (G fxb) = scaleF G (betterLt x f xb fxb) := by
  unfold betterLt
  simp only [hG.lt]
  split <;> rfl

theorem Follows.argminRec {H : Fl → Fl} (hG : Keeps H) {val : α → Fl} {val' : β → Fl} {φ : α → β} (hv : ∀ a, val' (φ a) = H (val a)) {l : List α} :
    Follows G env env' φ (NiaPy.argminRec val l : Prog X α) (NiaPy.argminRec val' (l.map φ)) := by
  refine .ofExcept ?_
  have e : (l.map φ).map val' = (l.map val).map H := by simp [List.map_map, Function.comp_def, hv]
  rw [e, argmin_map hG]
  cases argmin (l.map val) with
  | error e => rfl
  | ok i =>
    simp only [List.getElem?_map]
    cases l[i]? <;> rfl

theorem Follows.argminIdx (hG : Gauge G) {n : ℕ} {fit : Fin n → Fl} :
    Follows G env env' id (NiaPy.argminIdx fit : Prog X (Fin n)) (NiaPy.argminIdx fun i => G (fit i)) := by
  have := Follows.argminRec (X := X) (G := G) (env := env) (env' := env') hG.keeps (val := fit) (val' := fun i => G (fit i)) (φ := id) (fun _ => rfl) (l := List.finRange n)
  rwa [List.map_id] at this

theorem Follows.argmaxIdx (hG : Gauge G) {n : ℕ} {fit : Fin n → Fl} :
    Follows G env env' id (NiaPy.argmaxIdx fit : Prog X (Fin n)) (NiaPy.argmaxIdx fun i => G (fit i)) := by
  have := Follows.argminRec (X := X) (G := G) (env := env) (env' := env') hG.keepsNeg (val := fun i => -fit i) (val' := fun i => -G (fit i)) (φ := id)
    (fun i => by simp) (l := List.finRange n)
  rwa [List.map_id] at this

theorem Follows.sortIdx (hE : Rescaled G env env') {n : ℕ} {fs : Fin n → Fl} :
    Follows G env env' id (NiaPy.sortIdx fs : Prog X (Fin n → Fin n)) (NiaPy.sortIdx fun i => G (fs i)) := by
  unfold NiaPy.sortIdx
  rw [show (List.ofFn fun i => G (fs i)) = (List.ofFn fs).map G by rw [List.map_ofFn]; rfl]
  exact .bind' (.argsort hE) fun l => .pure' rfl

theorem Follows.sortRecs (hE : Rescaled G env env') {val : α → Fl} {val' : β → Fl} {φ : α → β} (hv : ∀ a, val' (φ a) = G (val a)) {l : List α} :
    Follows G env env' (List.map φ) (NiaPy.sortRecs val l : Prog X (List α)) (NiaPy.sortRecs val' (l.map φ)) := by
  unfold NiaPy.sortRecs
  rw [show (l.map φ).map val' = (l.map val).map G by simp [List.map_map, Function.comp_def, hv]]
  refine .bind' (.argsort hE) fun ei => .pure' ?_
  simp only [id, List.getElem?_map, List.map_filterMap]

theorem Follows.evalRows (hG : Gauge G) (hE : Rescaled G env env') {n : ℕ} {pop : Fin n → X} :
    Follows G env env' (fun f i => G (f i)) (NiaPy.evalRows pop) (NiaPy.evalRows pop) := by
  unfold NiaPy.evalRows
  exact .ite Iff.rfl (fun _ => .throw) fun _ => .tabM fun i => .eval hG hE

theorem Follows.evalRecs (hG : Gauge G) (hE : Rescaled G env env') {l : List X} :
    Follows G env env' (List.map (scaleF G)) (NiaPy.evalRecs l) (NiaPy.evalRecs l) := by
  unfold NiaPy.evalRecs
  exact .ite Iff.rfl (fun _ => .throw) fun _ => .mapMS fun x => .bind' (.eval hG hE) fun v => .pure' rfl

theorem Follows.moveEval (hG : Gauge G) (hE : Rescaled G env env') {n : ℕ} {m : Fin n → Prog X X} (hm : ∀ i, (m i).Blind) :
    Follows G env env' (fun r i => scaleF G (r i)) (NiaPy.moveEval m) (NiaPy.moveEval m) := by
  unfold NiaPy.moveEval
  exact .tabM fun i => .step hG hE (hm i) fun y => .bind' (.eval hG hE) fun f => .pure' rfl

theorem Follows.defaultNumpyInit {D : ℕ} {env env' : Env (Vec D)} (hG : Gauge G) (hE : Rescaled G env env') {B : Box D} {N : ℕ} :
    Follows G env env' (fun r => (r.1, fun i => G (r.2 i))) (NiaPy.defaultNumpyInit B N) (NiaPy.defaultNumpyInit B N) := by
  unfold NiaPy.defaultNumpyInit
  exact .step hG hE (by blind) fun pop => .ite Iff.rfl (fun _ => .throw) fun _ => .bind' (.tabM fun i => .eval hG hE) fun f => .pure' rfl

/-- An individual with transformed fitness. -/
def Indiv.rescale {D : ℕ} (G : Fl → Fl) (i : Indiv D) : Indiv D := ⟨i.x, G i.f⟩

theorem Follows.evaluate {D : ℕ} {env env' : Env (Vec D)} (hG : Gauge G) (hE : Rescaled G env env') {i i' : Indiv D} (h : i'.x = i.x) :
    Follows G env env' (Indiv.rescale G) i.evaluate i'.evaluate := by
  unfold Indiv.evaluate
  rw [h]
  exact .step hG hE .repair fun x => .bind' (.eval hG hE) fun f => .pure' rfl

theorem Follows.indivRandom {D : ℕ} {env env' : Env (Vec D)} (hG : Gauge G) (hE : Rescaled G env env') {opt : OptType} {B : Box D} :
    Follows G env env' (Indiv.rescale G) (Indiv.random opt B) (Indiv.random opt B) := .step hG hE .unifVec fun x => .evaluate hG hE rfl

theorem Follows.defaultIndividualInit {D : ℕ} {env env' : Env (Vec D)} (hG : Gauge G) (hE : Rescaled G env env') {opt : OptType} {B : Box D} {N : ℕ} :
    Follows G env env' (fun r i => (r i).rescale G) (NiaPy.defaultIndividualInit opt B N) (NiaPy.defaultIndividualInit opt B N) := .tabM fun _ => .indivRandom hG hE

theorem Follows.fireAll (hE : Rescaled G env env') {ncb : ℕ} {e : Event X} : Follows G env env' (fun _ => ()) (NiaPy.fireAll ncb e) (NiaPy.fireAll ncb (e.rescale G)) :=
  .forList (φ := fun _ : Unit => ()) fun _ _ => .fire hE

/-! ### Algorithms -/

/-- The algorithm uses the order of fitness values only: states are transformed by `m`, everything else stays the same. -/
structure Ordinal (A : Alg X) (m : (Fl → Fl) → A.σ → A.σ) : Prop where
  pop : ∀ G s, A.pop (m G s) = A.pop s
  fit : ∀ G s, A.fit (m G s) = (A.fit s).map G
  init : ∀ G env env', Gauge G → Rescaled G env env' → Follows G env env' (m G) A.init A.init
  iter : ∀ G env env', Gauge G → Rescaled G env env' → ∀ s xb fxb, Follows G env env' (fun r => (m G r.1, r.2.1, G r.2.2)) (A.iter s xb fxb) (A.iter (m G s) xb (G fxb))

/-- What a run returns, transformed. -/
def RunOut.rescale (t : OptType) (G : Fl → Fl) (r : RunOut X) : RunOut X := ⟨r.result.map (scaleF (t.conj G)), r.exception⟩

theorem Ordinal.body {A : Alg X} {m : (Fl → Fl) → A.σ → A.σ} (hA : Ordinal A m) (hG : Gauge G) (hE : Rescaled G env env') (ncb fuel : ℕ) :
    Follows G env env' (fun r => (m G r.1, r.2.1, G r.2.2)) (A.body ncb fuel) (A.body ncb fuel) := by
  have hloop : ∀ fuel s xb fxb, Follows G env env' (fun r => (m G r.1, r.2.1, G r.2.2)) (A.loop ncb fuel s xb fxb) (A.loop ncb fuel (m G s) xb (G fxb)) := by
    intro fuel
    induction fuel with
    | zero => intros; exact .throw
    | succ n ih =>
      intro s xb fxb
      unfold Alg.loop
      refine .step hG hE .look fun v => .ite Iff.rfl (fun _ => .pure' rfl) fun _ => ?_
      rw [hA.pop, hA.fit]
      refine .bind' (.fireAll hE) fun _ => .bind' (hA.iter G env env' hG hE s xb fxb) fun r => ?_
      obtain ⟨s, xb, fxb⟩ := r
      dsimp only
      rw [hA.pop, hA.fit]
      exact .bind' (.fireAll hE) fun _ => .bind' .next fun _ => ih s xb fxb
  unfold Alg.body
  refine .bind' (.fireAll (e := .beforeRun) hE) fun _ => .bind' (hA.init G env env' hG hE) fun s => ?_
  rw [hA.pop, hA.fit]
  have := getBest_map hG (A.pop s) (A.fit s) none .pinf
  rw [hG.pinf] at this
  exact .bind' (.ofExcept this) fun b => .bind' (hloop fuel s b.1 b.2) fun r => .bind' (.fireAll (e := .afterRun) hE) fun _ => .pure' rfl

/-- **C96.** If an algorithm only compares fitness values, replacing the objective by a strictly increasing function of it (and the cutoff value
alike) changes nothing but the fitness values: the same points are evaluated in the same order, the same solution is returned with the
transformed fitness (or the same exception raised), with the same numbers of evaluations and iterations, and callbacks are shown the same
populations. -/
theorem Ordinal.exec {A : Alg X} {m : (Fl → Fl) → A.σ → A.σ} (hA : Ordinal A m) (hG : Gauge G) (hE : Rescaled G env env') (main : Bool) (ncb fuel : ℕ) :
    (match (A.exec env main ncb fuel).1 with
      | .ok r => (A.exec env' main ncb fuel).1 = .ok (r.rescale env.opt G)
      | .error e => (A.exec env' main ncb fuel).1 = .error e) ∧
    Aligned G env.opt (A.exec env main ncb fuel).2 (A.exec env' main ncb fuel).2 := by
  rw [exec_eq, exec_eq]
  have h0 := Aligned.init (X := X) hG env.opt
  have hw : (A.execBody env' ncb fuel) = (A.body ncb fuel).run env' (World.init env.opt) := by rw [← hE.opt]; rfl
  rw [hw]
  rcases (hA.body hG hE ncb fuel).out _ _ h0 with ⟨r, w1, w1', h1, h2, h3⟩ | ⟨e, w1, w1', h1, h2, h3⟩
  · have h1' : A.execBody env ncb fuel = (.ok r, w1) := h1
    rw [h1', h2]
    simp only [RunOut.rescale, hE.opt]
    refine ⟨?_, h3⟩
    simp [scaleF, OptType.conj]
  · have h1' : A.execBody env ncb fuel = (.error e, w1) := h1
    rw [h1', h2]
    by_cases hm : main = true ∨ e = PyErr.outOfFuel
    · simp only [hm, if_true]
      exact ⟨trivial, h3⟩
    · simp only [hm, if_false]
      exact ⟨rfl, h3⟩

end NiaPy
