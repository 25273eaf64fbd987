import Verif.Congr
import Verif.Algo.RS
import Verif.Algo.CLONALG
import Verif.Algo.NM
import Verif.Algo.PSOVariants

/-!
# Algorithms that never repair a solution (C101), and the refreshing gap of CLPSO (C102)

The task is given a repair function, but it is up to the algorithm to use it. Random search, CLONALG and the method of Nelder and Mead do not; nor does the
comprehensive learning particle swarm, whose only call of `task.repair` is never reached.
-/

namespace NiaPy
variable {X α β γ σ : Type}

/-- The same task, seed and callbacks with another repair function. -/
def Env.withRepair (env : Env X) (g : Rng → ℕ → X → X) : Env X := { env with repairFn := g }

/-- The program does the same with the repair function `g`. -/
structure Blind (env : Env X) (g : Rng → ℕ → X → X) (m : Prog X α) : Prop where
  out : ∀ w, m.run (env.withRepair g) w = m.run env w

namespace Blind
variable {env : Env X} {g : Rng → ℕ → X → X}

theorem pure {a : α} : Blind env g (.pure a : Prog X α) := ⟨fun _ => rfl⟩
theorem pure' {a : α} : Blind env g (Pure.pure a : Prog X α) := pure
theorem throw {e : PyErr} : Blind env g (Prog.throw e : Prog X α) := ⟨fun _ => rfl⟩

theorem bind {m : Prog X α} {f : α → Prog X β} (h : Blind env g m) (hf : ∀ a, Blind env g (f a)) : Blind env g (m.bind f) := ⟨fun w => by
  rw [Prog.run_bind, Prog.run_bind, h.out]
  rcases m.run env w with ⟨_ | a, w'⟩
  · rfl
  · exact (hf a).out w'⟩

theorem bind' {m : Prog X α} {f : α → Prog X β} (h : Blind env g m) (hf : ∀ a, Blind env g (f a)) : Blind env g (m >>= f) := h.bind hf

theorem tryCatch {m : Prog X α} {f : PyErr → Prog X α} (h : Blind env g m) (hf : ∀ e, Blind env g (f e)) : Blind env g (m.tryCatch f) := ⟨fun w => by
  rw [Prog.run_tryCatch, Prog.run_tryCatch, h.out]
  rcases m.run env w with ⟨e | a, w'⟩
  · exact (hf e).out w'
  · rfl⟩

theorem ite {c : Prop} [Decidable c] {m n : Prog X α} (hm : c → Blind env g m) (hn : ¬ c → Blind env g n) : Blind env g (if c then m else n) := by
  split
  · exact hm ‹_›
  · exact hn ‹_›

theorem ofExcept {r : Except PyErr α} : Blind env g (Prog.ofExcept r) := by
  cases r
  · exact throw
  · exact pure

theorem eval {x : X} : Blind env g (Prog.eval x) :=
  ⟨fun w => (Prog.run_lift _ (.eval x) w).trans (Prog.run_lift env (.eval x) w).symm⟩
theorem look : Blind env g (Prog.look : Prog X TaskView) := ⟨fun _ => rfl⟩
theorem next : Blind env g (Prog.next : Prog X Unit) := ⟨fun _ => rfl⟩
theorem fire {i : ℕ} {e : Event X} : Blind env g (Prog.fire i e) :=
  ⟨fun w => (Prog.run_lift _ (.fire i e) w).trans (Prog.run_lift env (.fire i e) w).symm⟩
theorem rand : Blind env g (Prog.rand : Prog X Fl) := ⟨fun _ => rfl⟩
theorem unif {a b : Fl} : Blind env g (Prog.unif a b : Prog X Fl) :=
  ⟨fun w => (Prog.run_lift _ (.unif a b) w).trans (Prog.run_lift env (.unif a b) w).symm⟩
theorem perm {n : ℕ} : Blind env g (Prog.perm n : Prog X (List ℕ)) := ⟨fun _ => rfl⟩
theorem argsort {l : List Fl} : Blind env g (Prog.argsort l : Prog X (List ℕ)) := ⟨fun _ => rfl⟩

theorem tabM {n : ℕ} {f : Fin n → Prog X α} (h : ∀ i, Blind env g (f i)) : Blind env g (NiaPy.tabM n f) := by
  induction n with
  | zero => exact pure
  | succ n ih => exact bind (h 0) fun a => bind (ih fun i => h i.succ) fun r => pure

theorem forFin {n : ℕ} {f : Fin n → σ → Prog X σ} {s : σ} (h : ∀ i s, Blind env g (f i s)) : Blind env g (NiaPy.forFin n f s) := by
  induction n generalizing s with
  | zero => exact pure
  | succ n ih => exact bind (h 0 s) fun s => ih fun i => h i.succ

theorem forList {l : List γ} {f : γ → σ → Prog X σ} {s : σ} (h : ∀ i s, Blind env g (f i s)) : Blind env g (NiaPy.forList l f s) := by
  induction l generalizing s with
  | nil => exact pure
  | cons b l ih => exact bind (h b s) fun s => ih

theorem mapM' {l : List γ} {f : γ → Prog X α} (h : ∀ b, Blind env g (f b)) : Blind env g (NiaPy.mapM' l f) := by
  induction l with
  | nil => exact pure
  | cons b l ih => exact bind (h b) fun a => bind ih fun r => pure

theorem sortIdx {n : ℕ} {fs : Fin n → Fl} : Blind env g (NiaPy.sortIdx fs : Prog X (Fin n → Fin n)) := argsort.bind fun _ => pure'
theorem sortRecs {val : α → Fl} {l : List α} : Blind env g (NiaPy.sortRecs val l : Prog X (List α)) := argsort.bind fun _ => pure'
theorem evalRows {n : ℕ} {pop : Fin n → X} : Blind env g (NiaPy.evalRows pop) := ite (fun _ => throw) fun _ => tabM fun _ => eval
theorem fireAll {ncb : ℕ} {e : Event X} : Blind env g (NiaPy.fireAll ncb e) := forList fun _ _ => fire

theorem numpyInit {D N : ℕ} {B : Box D} {env : Env (Vec D)} {g : Rng → ℕ → Vec D → Vec D} : Blind env g (defaultNumpyInit B N) :=
  (tabM fun _ => tabM fun _ => unif).bind' fun _ => ite (fun _ => throw) fun _ => (tabM fun _ => eval).bind' fun _ => pure'

/-- An algorithm whose initialization and iterations do not repair. -/
theorem exec {A : Alg X} (h0 : Blind env g A.init) (hi : ∀ s xb fxb, Blind env g (A.iter s xb fxb)) (main : Bool) (ncb fuel : ℕ) :
    A.exec (env.withRepair g) main ncb fuel = A.exec env main ncb fuel := by
  have hl : ∀ fuel s xb fxb, Blind env g (A.loop ncb fuel s xb fxb) := fun fuel => by
    induction fuel with
    | zero => exact fun s xb fxb => throw
    | succ n ih => exact fun s xb fxb => look.bind' fun v => ite (fun _ => pure') fun _ => fireAll.bind' fun _ => (hi s xb fxb).bind' fun r => fireAll.bind' fun _ => next.bind' fun _ => ih ..
  have hb : Blind env g (A.body ncb fuel) := fireAll.bind' fun _ => h0.bind' fun s => ofExcept.bind' fun r => (hl fuel s r.1 r.2).bind' fun _ => fireAll.bind' fun _ => pure'
  exact ((hb.bind fun r => pure).tryCatch fun e => ite (fun _ => throw) fun _ => pure).out _

end Blind

/-! ### C101 -/

variable [Arith] {D N : ℕ} {env : Env (Vec D)} {g : Rng → ℕ → Vec D → Vec D}

/-- **C101** for `RandomSearch`: the repair function has no effect. -/
theorem RS.C101_rs (env : Env (Vec D)) (g : Rng → ℕ → Vec D → Vec D) (B : Box D) (rounds : ℕ) (main : Bool) (ncb fuel : ℕ) :
    (RS.alg B rounds).exec (env.withRepair g) main ncb fuel = (RS.alg B rounds).exec env main ncb fuel := by
  have hf : ∀ l n, Blind env g (fresh B l n) := fun l n => by
    induction n with
    | zero => exact .throw
    | succ n ih => exact Blind.bind' (.bind' (.tabM fun _ => .rand) fun _ => .pure') fun x => .ite (fun _ => ih) fun _ => .pure'
  refine Blind.exec ?_ (fun s xb fxb => ?_) main ncb fuel
  · refine Blind.look.bind' fun v => (Blind.forFin fun i l => (hf _ _).bind' fun _ => .pure').bind' fun l => ?_
    split
    · exact Blind.eval.bind' fun _ => .pure'
    · exact .throw
  · refine Blind.look.bind' fun v => ?_
    split
    · exact .throw
    · exact Blind.eval.bind' fun _ => .pure'

/-- **C101** for `ClonalSelectionAlgorithm`. -/
theorem CLONALG.C101_clonalg (env : Env (Vec D)) (g : Rng → ℕ → Vec D → Vec D) (B : Box D) (b N : ℕ) (p : Par) (main : Bool) (ncb fuel : ℕ) :
    (CLONALG.alg B b N p).exec (env.withRepair g) main ncb fuel = (CLONALG.alg B b N p).exec env main ncb fuel := by
  have he : ∀ l : List (Bits D b), Blind env g (evaluate B l) := fun l =>
    Blind.bind' (.ite (fun _ => .throw) fun _ => .mapM' fun _ => Blind.eval.bind' fun _ => .pure') fun _ => .pure'
  have hs : ∀ l : List (Ab D b), Blind env g (select N l) := fun l => Blind.sortRecs.bind' fun _ => .pure'
  have hr : ∀ n, Blind env g (randomBits n : Prog (Vec D) (List (Bits D b))) := fun n => .mapM' fun _ => .tabM fun _ => .tabM fun _ => Blind.rand.bind' fun _ => .pure'
  refine Blind.exec ((hr N).bind' he) (fun s xb fxb => ?_) main ncb fuel
  refine Blind.bind' (.bind' (.mapM' fun _ => .tabM fun _ => .tabM fun _ => Blind.rand.bind' fun _ => .pure') fun c => (he c).bind' fun _ => hs _) fun s => ?_
  refine Blind.ofExcept.bind' fun r => Blind.bind' (.ite (fun _ => .pure') fun _ => (hr _).bind' fun _ => (he _).bind' fun _ => hs _) fun s => Blind.ofExcept.bind' fun _ => .pure'

/-- **C101** for `NelderMeadMethod`. -/
theorem NM.C101_nm (env : Env (Vec D)) (g : Rng → ℕ → Vec D → Vec D) (B : Box D) (N : ℕ) (p : Par) (main : Bool) (ncb fuel : ℕ) :
    (NM.alg B N p).exec (env.withRepair g) main ncb fuel = (NM.alg B N p).exec env main ncb fuel := by
  refine Blind.exec (Blind.numpyInit.bind' fun _ => .pure') (fun s xb fxb => ?_) main ncb fuel
  refine Blind.sortIdx.bind' fun si => Blind.bind' ?_ fun s => Blind.ofExcept.bind' fun _ => .pure'
  unfold method
  split
  · refine Blind.eval.bind' fun rs => Blind.bind' ?_ fun b => .ite (fun _ => .pure') fun _ => .ite (fun _ => Blind.eval.bind' fun _ => .pure') fun _ =>
      Blind.eval.bind' fun _ => .ite (fun _ => .pure') fun _ => Blind.evalRows.bind' fun _ => .pure'
    unfold reflects
    split
    · split
      · exact .pure'
      · exact .throw
    · exact .pure'
  · exact .throw

/-! ### C102: the refreshing gap of CLPSO -/

namespace PSO
variable {B : Box D} {p p' : CPar D}

/-- One iteration without the branch that refreshes: only comprehensive learning. -/
def iterC0 (B : Box D) (p : CPar D) (s : CSt D N) (xb : Vec D) (fxb : Fl) : Prog (Vec D) (CSt D N × Vec D × Fl) := do
  let t ← Prog.look
  forFin N (fun i s => learnCl B p (inertiaC p t) i s) (s, xb, fxb)

/-- No particle has ever missed an improvement, according to the counters. -/
def NoFlag (s : CSt D N) : Prop := ∀ i, s.flag i = 0

theorem learnCl_flag (w : Fl) (i : Fin N) (s : CSt D N × Vec D × Fl) (h : NoFlag s.1) : Post env (learnCl B p w i s) fun r => NoFlag r.1 := by
  unfold learnCl
  refine .bind' .any fun pb _ => .bind' .any fun v _ => ?_
  dsimp only
  split
  · exact .bind' .any fun f _ => .pure' h
  · exact .pure' h

theorem iterC_same (hm : 1 ≤ p.m) (s : CSt D N) (xb : Vec D) (fxb : Fl) (h : NoFlag s) :
    Same env (iterC B p s xb fxb) (iterC0 B p s xb fxb) ∧ Post env (iterC B p s xb fxb) fun r => NoFlag r.1 := by
  have hr : ∀ (i : Fin N) (s : CSt D N × Vec D × Fl), NoFlag s.1 → refresh p i s = pure s := fun i s h => by
    unfold refresh
    rw [if_neg (by rw [h i]; omega)]
  have key : ∀ (w : Fl) (l : ℕ) (idx : Fin l → Fin N) (s : CSt D N × Vec D × Fl), NoFlag s.1 →
      Same env (forFin l (fun i s => (do let s ← refresh p (idx i) s; learnCl B p w (idx i) s : Prog (Vec D) _)) s) (forFin l (fun i s => learnCl B p w (idx i) s) s) ∧
      Post env (forFin l (fun i s => (do let s ← refresh p (idx i) s; learnCl B p w (idx i) s : Prog (Vec D) _)) s) fun r => NoFlag r.1 := by
    intro w l
    induction l with
    | zero => exact fun idx s h => ⟨Same.rfl', .pure' h⟩
    | succ l ih =>
      intro idx s h
      have e : (do let s ← refresh p (idx 0) s; learnCl B p w (idx 0) s : Prog (Vec D) _) = learnCl B p w (idx 0) s := by rw [hr _ s h]; rfl
      have h1 := learnCl_flag (env := env) (B := B) (p := p) w (idx 0) s h
      constructor
      · show Same env (Prog.bind _ _) (Prog.bind _ _)
        beta_reduce
        rw [e]
        exact .bind h1 fun s' hs' => (ih (fun i => idx i.succ) s' hs').1
      · show Post env (Prog.bind _ _) _
        beta_reduce
        rw [e]
        exact .bind h1 fun s' hs' => (ih (fun i => idx i.succ) s' hs').2
  exact ⟨.bind' .any fun t _ => (key _ N id (s, xb, fxb) h).1, .bind' .any fun t _ => (key _ N id (s, xb, fxb) h).2⟩

theorem initC_flag : Post env (initC B N) NoFlag := by
  refine .bind' .any fun s _ => ?_
  by_cases h : N = 1
  · rw [if_pos h]; exact fun w w' a ha => nomatch ha
  · rw [if_neg h]; exact Post.pure' (P := NoFlag) fun _ => rfl

/-- CLPSO with a refreshing gap of at least 1 is the algorithm that never refreshes. -/
theorem algC_exec (hm : 1 ≤ p.m) (main : Bool) (ncb fuel : ℕ) :
    (algC B N p).exec env main ncb fuel = ({ algC B N p with iter := iterC0 B p } : Alg (Vec D)).exec env main ncb fuel :=
  (Alg.exec_congr (A := algC B N p) (Inv := NoFlag) initC_flag (fun s xb fxb h => (iterC_same hm s xb fxb h).2) (fun s xb fxb h => (iterC_same hm s xb fxb h).1) main ncb fuel).symm

/-- Parameters that may differ only in the refreshing gap, `c1`, `c2` and `w`. -/
structure CPar.Agree (p p' : CPar D) : Prop where
  w0 : p.w0 = p'.w0
  w1 : p.w1 = p'.w1
  c : p.c = p'.c
  vmin : p.base.vmin = p'.base.vmin
  vmax : p.base.vmax = p'.base.vmax
  rep : p.base.rep = p'.base.rep

/-- **C102.** Runs of `ComprehensiveLearningParticleSwarmOptimizer` with refreshing gaps `m` of at least 1 are the same run whatever these gaps, and whatever `c1`, `c2` and `w`. -/
theorem C102_clpso (env : Env (Vec D)) (B : Box D) (N : ℕ) (hm : 1 ≤ p.m) (hm' : 1 ≤ p'.m) (h : p.Agree p') (main : Bool) (ncb fuel : ℕ) :
    (algC B N p).exec env main ncb fuel = (algC B N p').exec env main ncb fuel := by
  rw [algC_exec hm, algC_exec hm']
  have e : (iterC0 B p : CSt D N → Vec D → Fl → _) = iterC0 B p' := by
    funext s xb fxb
    simp only [iterC0, learnCl, velCl, inertiaC, h.w0, h.w1, h.c, h.vmin, h.vmax, h.rep]
  rw [e]
  rfl

theorem learnCl_blind (w : Fl) (i : Fin N) (s : CSt D N × Vec D × Fl) : Blind env g (learnCl B p w i s) := by
  unfold learnCl
  have hs : Blind env g (scaleIdx N : Prog (Vec D) (Fin N)) := Blind.rand.bind' fun r => by
    split
    · exact .pure'
    · exact .throw
  refine Blind.bind' (.tabM fun j => Blind.rand.bind' fun r => .ite (fun _ => .pure') fun _ => hs.bind' fun _ => hs.bind' fun _ => .pure') fun pb =>
    Blind.bind' (.bind' (.tabM fun _ => .rand) fun _ => .pure') fun v => ?_
  dsimp only
  split
  · exact Blind.eval.bind' fun f => .pure'
  · exact .pure'

/-- **C101** for `ComprehensiveLearningParticleSwarmOptimizer` with a refreshing gap of at least 1. -/
theorem C101_clpso (env : Env (Vec D)) (g : Rng → ℕ → Vec D → Vec D) (B : Box D) (N : ℕ) (hm : 1 ≤ p.m) (main : Bool) (ncb fuel : ℕ) :
    (algC B N p).exec (env.withRepair g) main ncb fuel = (algC B N p).exec env main ncb fuel := by
  rw [algC_exec hm, algC_exec hm]
  refine Blind.exec (A := { algC B N p with iter := iterC0 B p }) (Blind.bind' (Blind.numpyInit.bind' fun _ => .pure') fun s => ?_) (fun s xb fxb => ?_) main ncb fuel
  · by_cases h : N = 1
    · rw [if_pos h]; exact .throw
    · rw [if_neg h]; exact .bind' .pure' fun _ => .pure'
  · exact Blind.look.bind' fun t => .forFin fun i s => learnCl_blind _ i s

/-- **C102.** The best solution found so far does not attract the particles: what an iteration evaluates and the swarm it leads to do not depend on it. -/
theorem C102_best (env : Env (Vec D)) (B : Box D) (hm : 1 ≤ p.m) {s : CSt D N} (hs : NoFlag s) (xb xb' : Vec D) (fxb fxb' : Fl) :
    Alike env (fun r r' => r.1 = r'.1) (iterC B p s xb fxb) (iterC B p s xb' fxb') := by
  have h0 : Alike env (fun r r' => r.1 = r'.1) (iterC0 B p s xb fxb) (iterC0 B p s xb' fxb') := by
    refine Alike.step fun t => Alike.forFin (T := fun a b : CSt D N × Vec D × Fl => a.1 = b.1) rfl ?_
    rintro i ⟨s, xb, fxb⟩ ⟨_, xb', fxb'⟩ rfl
    unfold learnCl
    refine Alike.step fun pb => Alike.step fun v => ?_
    dsimp only
    split
    · exact Alike.step fun f => Alike.pure rfl
    · exact Alike.pure rfl
  intro w
  have := h0 w
  rwa [← (iterC_same hm s xb fxb hs).1 w, ← (iterC_same hm s xb' fxb' hs).1 w] at this

/-! ### Examples -/

/-- Two parameter settings that differ in the refreshing gap, `c1`, `c2` and `w`. -/
def exGap (m : ℤ) (a : Fl) : CPar 1 := ⟨⟨a, a, fun _ => a, fun _ => .ninf, fun _ => .pinf, fun v _ _ => v⟩, m, .fin (9 / 10), .fin (4 / 10), .fin 2⟩

example (ncb fuel : ℕ) : (@algC Ex.arith 1 (Ex.box 1) 3 (exGap 7 (.fin 1))).exec Ex.env2 true ncb fuel = (@algC Ex.arith 1 (Ex.box 1) 3 (exGap 3 (.fin 2))).exec Ex.env2 true ncb fuel :=
  @C102_clpso Ex.arith 1 (exGap 7 (.fin 1)) (exGap 3 (.fin 2)) _ _ _ (by decide) (by decide) ⟨rfl, rfl, rfl, rfl, rfl, rfl⟩ _ _ _

/-- These runs evaluate something after the initial swarm. -/
example : 3 < ((@algC Ex.arith 1 (Ex.box 1) 3 (exGap 7 (.fin 1))).exec Ex.env2 true 0 5).2.calls.length := by decide +kernel

omit [Arith] in
/-- A gap of 0 is another algorithm: every particle is moved and evaluated twice in an iteration. -/
theorem C102_zero_false : (@algC Ex.arith 1 (Ex.box 1) 3 (exGap 0 (.fin 1))).exec Ex.env2 true 0 5 ≠ (@algC Ex.arith 1 (Ex.box 1) 3 (exGap 1 (.fin 1))).exec Ex.env2 true 0 5 := fun h =>
  absurd (congrArg (fun r => r.2.calls.length) h) (by decide +kernel)

omit [Arith] in
/-- So it is with a repair function: with a gap of 0 it has an effect ... -/
theorem C101_clpso_zero_false : (@algC Ex.arith 1 (Ex.box 1) 3 (exGap 0 (.fin 1))).exec (Ex.env2.withRepair fun _ _ _ _ => .fin 0) true 0 5 ≠
    (@algC Ex.arith 1 (Ex.box 1) 3 (exGap 0 (.fin 1))).exec (Ex.env2.withRepair fun _ _ _ _ => .fin 1) true 0 5 := fun h =>
  absurd (congrArg (fun r => r.2.calls.map fun c => c.1 0) h) (by decide +kernel)

end PSO

omit [Arith] in
/-- ... as it has for the algorithms that call `task.repair`. -/
theorem C101_pso_false : (letI := Ex.arith; (PSO.alg (Ex.box 1) 3 PSO.exPar false false 0).exec (Ex.env2.withRepair fun _ _ _ _ => .fin 0) true 0 5) ≠
    (letI := Ex.arith; (PSO.alg (Ex.box 1) 3 PSO.exPar false false 0).exec (Ex.env2.withRepair fun _ _ _ _ => .fin 1) true 0 5) := fun h =>
  absurd (congrArg (fun r => r.2.calls.map fun c => c.1 0) h) (by decide +kernel)

/-- The runs compared by `RS.C101_rs`, `CLONALG.C101_clonalg` and `NM.C101_nm` do evaluate points. -/
example : ((@RS.alg Ex.arith 1 (Ex.box 1) 5).exec RS.Ex.env true 0 5).2.calls.length = 2 := by decide +kernel
example : ((@CLONALG.alg Ex.arith 1 (Ex.box 1) 3 2 ⟨2, .fin 1, 1⟩).exec Ex.env2 true 0 5).2.calls.length = 12 := by decide +kernel
example : ((@NM.alg Ex.arith 1 (Ex.box 1) 3 ⟨.fin (1 / 10), .fin (3 / 10), .fin (-1 / 5), .fin (-1 / 5)⟩).exec Ex.env2 true 0 5).2.calls.length = 7 := by decide +kernel

end NiaPy
