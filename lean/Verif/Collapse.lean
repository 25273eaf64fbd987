import Verif.ChartsMain
import Verif.Double

/-!
# C99: a population that has collapsed to one point

Algorithms that move their individuals by multiples of differences between solutions do not leave a point once all solutions coincide there. The arithmetic may be exact or that of
double precision: only `x - x = 0`, `q * 0 = 0` and `x + 0 = x` are used.
-/

namespace NiaPy
variable {X α β γ σ : Type}

/-- A finite float. -/
def Fl.Real (v : Fl) : Prop := ∃ q : ℚ, v = .fin q

/-! ### Programs that evaluate one point only -/

/-- A callback is shown nothing but the point `p`. -/
def Event.At (p : X) : Event X → Prop
  | .beforeIteration pop _ xb _ => (∀ x ∈ pop, x = p) ∧ xb = p
  | .afterIteration pop _ xb _ => (∀ x ∈ pop, x = p) ∧ xb = p
  | _ => True

/-- From `w` to `w'` the objective was called at `p` only and callbacks were shown `p` only; and if `p` has no better value than the best one so far, that one is still the best. -/
structure Idle (env : Env X) (p : X) (w w' : World X) : Prop where
  calls : ∃ l, w'.calls = w.calls ++ l ∧ ∀ c ∈ l, c.1 = p
  events : ∃ l, w'.events = w.events ++ l ∧ ∀ e ∈ l, e.2.At p
  best : (∀ k r, env.obj k p = .ok r → ¬ env.opt.mul r < env.opt.mul w.st.xf) → w'.st.xf = w.st.xf

theorem Idle.same {env : Env X} {p : X} {w w' : World X} (h1 : w'.calls = w.calls) (h2 : w'.events = w.events) (h3 : w'.st.xf = w.st.xf) : Idle env p w w' :=
  ⟨⟨[], by simp [h1], nofun⟩, ⟨[], by simp [h2], nofun⟩, fun _ => h3⟩

theorem Idle.trans {env : Env X} {p : X} {w w' w'' : World X} (h : Idle env p w w') (h' : Idle env p w' w'') : Idle env p w w'' := by
  obtain ⟨⟨l, e, hl⟩, ⟨m, f, hm⟩, hb⟩ := h
  obtain ⟨⟨l', e', hl'⟩, ⟨m', f', hm'⟩, hb'⟩ := h'
  refine ⟨⟨l ++ l', by rw [e', e, List.append_assoc], fun c hc => ?_⟩, ⟨m ++ m', by rw [f', f, List.append_assoc], fun c hc => ?_⟩, fun h => ?_⟩
  · exact (List.mem_append.1 hc).elim (hl c) (hl' c)
  · exact (List.mem_append.1 hc).elim (hm c) (hm' c)
  · have := hb h
    rw [hb' (by rw [this]; exact h), this]

/-- `m` evaluates no point but `p`, and what it returns satisfies `P`. -/
structure Rests (env : Env X) (p : X) (m : Prog X α) (P : α → Prop) : Prop where
  out : ∀ w, Idle env p w (m.run env w).2 ∧ ∀ a, (m.run env w).1 = .ok a → P a

namespace Rests
variable {env : Env X} {p : X}

theorem pure {a : α} {P : α → Prop} (h : P a) : Rests env p (.pure a) P := ⟨fun w => ⟨.same rfl rfl rfl, fun b hb => by cases hb; exact h⟩⟩
theorem pure' {a : α} {P : α → Prop} (h : P a) : Rests env p (Pure.pure a) P := pure h
theorem throw {e : PyErr} {P : α → Prop} : Rests env p (Prog.throw e : Prog X α) P := ⟨fun w => ⟨.same rfl rfl rfl, nofun⟩⟩

theorem mono {m : Prog X α} {P Q : α → Prop} (h : Rests env p m P) (hP : ∀ a, P a → Q a) : Rests env p m Q :=
  ⟨fun w => ⟨(h.out w).1, fun a ha => hP a ((h.out w).2 a ha)⟩⟩

theorem any {m : Prog X α} {P : α → Prop} (h : Rests env p m P) : Rests env p m fun _ => True := h.mono fun _ _ => trivial

theorem bind {m : Prog X α} {f : α → Prog X β} {P : α → Prop} {Q : β → Prop} (h : Rests env p m P) (hf : ∀ a, P a → Rests env p (f a) Q) :
    Rests env p (m.bind f) Q := ⟨fun w => by
  rw [Prog.run_bind]
  have := h.out w
  rcases hr : m.run env w with ⟨_ | a, w'⟩
  · rw [hr] at this
    exact ⟨this.1, nofun⟩
  · rw [hr] at this
    have h2 := (hf a (this.2 a rfl)).out w'
    exact ⟨this.1.trans h2.1, h2.2⟩⟩

theorem bind' {m : Prog X α} {f : α → Prog X β} {P : α → Prop} {Q : β → Prop} (h : Rests env p m P) (hf : ∀ a, P a → Rests env p (f a) Q) :
    Rests env p (m >>= f) Q := h.bind hf

theorem bindT {m : Prog X α} {f : α → Prog X β} {P : α → Prop} {Q : β → Prop} (h : Rests env p m P) (hf : ∀ a, Rests env p (f a) Q) :
    Rests env p (m >>= f) Q := h.bind fun a _ => hf a

theorem ite {c : Prop} [Decidable c] {m n : Prog X α} {P : α → Prop} (hm : c → Rests env p m P) (hn : ¬ c → Rests env p n P) :
    Rests env p (if c then m else n) P := by
  split
  · exact hm ‹_›
  · exact hn ‹_›

theorem ofExcept {r : Except PyErr α} {P : α → Prop} (h : ∀ a, r = .ok a → P a) : Rests env p (Prog.ofExcept r) P := by
  cases r with
  | error e => exact throw
  | ok a => exact pure (h a rfl)

/-- `task.eval(p)` -/
theorem eval {x : X} (hx : x = p) : Rests env p (Prog.eval x) fun _ => True := ⟨fun w => by
  subst hx
  rw [Prog.run_eval]
  refine ⟨?_, fun _ _ => trivial⟩
  rcases evalTask_cases env.toTaskCfg w.st x with ⟨-, h1⟩ | ⟨-, e, h2, h1⟩ | ⟨-, r, hr, h1⟩
  · rw [h1]; exact .same (by simp) rfl rfl
  · rw [h1]; exact ⟨⟨_, rfl, by simp⟩, ⟨[], by simp, nofun⟩, fun _ => rfl⟩
  · rw [h1]
    refine ⟨⟨_, rfl, by simp⟩, ⟨[], by simp, nofun⟩, fun h => ?_⟩
    simp only [record]
    rw [if_neg (h _ _ hr)]⟩

theorem look : Rests env p (Prog.look : Prog X TaskView) fun _ => True := ⟨fun w => ⟨.same rfl rfl rfl, fun _ _ => trivial⟩⟩
theorem next : Rests env p (Prog.next : Prog X Unit) fun _ => True := ⟨fun w => by rw [Prog.run_next]; exact ⟨.same rfl rfl rfl, fun _ _ => trivial⟩⟩
theorem fire {i : ℕ} {e : Event X} (h : e.At p) : Rests env p (Prog.fire i e) fun _ => True := ⟨fun w => by
  rw [Prog.run_fire]
  exact ⟨⟨⟨[], by simp, nofun⟩, ⟨_, rfl, by simpa using h⟩, fun _ => rfl⟩, fun _ _ => trivial⟩⟩

/-- The point itself is feasible: no repair function changes it (C10). -/
theorem repair (hR : ∀ rng k, env.repairFn rng k p = p) {x : X} {s : Bool} (hx : x = p) : Rests env p (Prog.repair x s) fun y => y = p := ⟨fun w => by
  subst hx
  cases s
  · exact ⟨.same rfl rfl rfl, fun a ha => by cases ha; exact hR _ _⟩
  · exact ⟨.same rfl rfl rfl, fun a ha => by cases ha; exact hR _ _⟩⟩

theorem rand : Rests env p (Prog.rand : Prog X Fl) fun r => Fl.fin 0 ≤ r ∧ r < Fl.fin 1 :=
  ⟨fun w => ⟨.same rfl rfl rfl, fun a ha => by cases ha; exact env.rng.rand_mem _⟩⟩

theorem norm {a b : Fl} : Rests env p (Prog.norm a b : Prog X Fl) fun r => ∃ k, r = env.rng.dist k .normal a b := ⟨fun w => by
  rw [show (Prog.norm a b : Prog X Fl).run env w = _ from Prog.run_lift env (.dist .normal a b) w]
  simp only [stepOp]
  split
  · exact ⟨.same rfl rfl rfl, nofun⟩
  · exact ⟨.same rfl rfl rfl, fun a ha => by cases ha; exact ⟨_, rfl⟩⟩⟩

theorem int {n : ℕ} : Rests env p (Prog.int n : Prog X ℕ) fun _ => True := ⟨fun w => by
  rw [show (Prog.int n : Prog X ℕ).run env w = _ from Prog.run_lift env (.int n) w]
  simp only [stepOp]
  split <;> exact ⟨.same rfl rfl rfl, fun _ _ => trivial⟩⟩
theorem perm {n : ℕ} : Rests env p (Prog.perm n : Prog X (List ℕ)) fun _ => True := ⟨fun w => ⟨.same rfl rfl rfl, fun _ _ => trivial⟩⟩
theorem argsort {l : List Fl} : Rests env p (Prog.argsort l : Prog X (List ℕ)) fun _ => True := ⟨fun w => ⟨.same rfl rfl rfl, fun _ _ => trivial⟩⟩

theorem tabM {n : ℕ} {f : Fin n → Prog X α} {P : Fin n → α → Prop} (h : ∀ i, Rests env p (f i) (P i)) :
    Rests env p (NiaPy.tabM n f) fun r => ∀ i, P i (r i) := by
  induction n with
  | zero => exact pure fun i => i.elim0
  | succ n ih =>
    refine bind (h 0) fun a ha => bind (ih fun i => h i.succ) fun r hr => pure fun i => ?_
    refine Fin.cases ?_ (fun i => ?_) i
    · exact ha
    · exact hr i

theorem forFin {n : ℕ} {f : Fin n → σ → Prog X σ} {s : σ} (J : σ → Prop) (h0 : J s)
    (hstep : ∀ i s, J s → Rests env p (f i s) J) : Rests env p (NiaPy.forFin n f s) J := by
  induction n generalizing s with
  | zero => exact pure h0
  | succ n ih => exact bind (hstep 0 s h0) fun s hs => ih hs fun i s => hstep i.succ s

theorem forList {l : List γ} {f : γ → σ → Prog X σ} {s : σ} (J : σ → Prop) (h0 : J s)
    (hstep : ∀ i ∈ l, ∀ s, J s → Rests env p (f i s) J) : Rests env p (NiaPy.forList l f s) J := by
  induction l generalizing s with
  | nil => exact pure h0
  | cons b l ih => exact bind (hstep b (by simp) s h0) fun s hs => ih hs fun i hi s => hstep i (by simp [hi]) s

theorem mapM' {l : List γ} {f : γ → Prog X α} {P : α → Prop} (h : ∀ b ∈ l, Rests env p (f b) P) :
    Rests env p (NiaPy.mapM' l f) fun r => ∀ a ∈ r, P a := by
  induction l with
  | nil => exact pure nofun
  | cons b l ih =>
    exact bind (h b (by simp)) fun a ha => bind (ih fun b hb => h b (by simp [hb])) fun r hr => pure fun x hx => by
      rcases List.mem_cons.1 hx with rfl | hx
      · exact ha
      · exact hr x hx

theorem intFin {n : ℕ} : Rests env p (NiaPy.intFin n : Prog X (Fin n)) fun _ => True :=
  int.bind fun k _ => by split <;> first | exact pure trivial | exact throw
theorem permIdx {n : ℕ} : Rests env p (NiaPy.permIdx n : Prog X (Fin n → Fin n)) fun _ => True := perm.bind fun _ _ => pure' trivial
theorem sortIdx {n : ℕ} {fs : Fin n → Fl} : Rests env p (NiaPy.sortIdx fs : Prog X (Fin n → Fin n)) fun _ => True := argsort.bind fun _ _ => pure' trivial
theorem choiceFin {n k : ℕ} : Rests env p (NiaPy.choiceFin n k : Prog X (Fin k → Fin n)) fun _ => True := by
  unfold NiaPy.choiceFin
  split
  · exact permIdx.bind fun _ _ => pure' trivial
  · exact throw
theorem choiceRep {n k : ℕ} : Rests env p (NiaPy.choiceRep n k : Prog X (Fin k → Fin n)) fun _ => True := (tabM fun _ => intFin).any
theorem choiceOther {n k : ℕ} {ic : Fin n} : Rests env p (NiaPy.choiceOther n k ic : Prog X (Fin k → Fin n)) fun _ => True := by
  refine permIdx.bind fun _ _ => ?_
  simp only
  split
  · exact pure' trivial
  · exact throw
theorem randVec {D : ℕ} : Rests env p (NiaPy.randVec D : Prog X (Vec D)) fun r => ∀ j, Fl.fin 0 ≤ r j ∧ r j < Fl.fin 1 := tabM fun _ => rand
theorem normVec {D : ℕ} {a b : Fl} : Rests env p (NiaPy.normVec D a b : Prog X (Vec D)) fun r => ∀ j, ∃ k, r j = env.rng.dist k .normal a b := tabM fun _ => norm

theorem repairRows (hR : ∀ rng k, env.repairFn rng k p = p) {n : ℕ} {pop : Fin n → X} {s : Bool} (hx : ∀ i, pop i = p) :
    Rests env p (NiaPy.repairRows pop s) fun y => ∀ i, y i = p := tabM fun i => repair hR (hx i)
theorem evalRows {n : ℕ} {pop : Fin n → X} (hx : ∀ i, pop i = p) : Rests env p (NiaPy.evalRows pop) fun _ => True := by
  unfold NiaPy.evalRows
  exact ite (fun _ => throw) fun _ => (tabM fun i => eval (hx i)).any

/-- Picking the best of a collapsed population. -/
theorem getBest {pop : List X} {fit : List Fl} {fxb : Fl} {xb : X} (h : ∀ x ∈ pop, x = p) (hb : xb = p) :
    Rests env p (Prog.getBest pop fit xb fxb) fun r => r.1 = p := by
  refine ofExcept fun a ha => ?_
  unfold NiaPy.getBest at ha
  split at ha
  · cases ha
  · split at ha
    · cases ha
    · split at ha
      · split at ha
        · cases ha
        · rename_i hx
          cases ha
          exact h _ (List.mem_of_getElem? hx)
      · cases ha
        exact hb

theorem argminRec {val : α → Fl} {l : List α} {P : α → Prop} (h : ∀ a ∈ l, P a) : Rests env p (NiaPy.argminRec val l : Prog X α) P := by
  refine ofExcept fun a ha => ?_
  split at ha
  · cases ha
  · split at ha
    · cases ha
    · rename_i hx
      cases ha
      exact h _ (List.mem_of_getElem? hx)

theorem fireAll {ncb : ℕ} {e : Event X} (h : e.At p) : Rests env p (NiaPy.fireAll ncb e) fun _ => True :=
  forList (fun _ => True) trivial fun _ _ _ _ => fire h

end Rests

/-! ### Algorithms -/

/-- `S` describes states in which all solutions the algorithm keeps are at `p`. An iteration from such a state, with `p` as the best solution so far, leads to such a state again and
evaluates nothing but `p`. -/
structure Settles (env : Env X) (p : X) (A : Alg X) (S : A.σ → Prop) : Prop where
  pop : ∀ s, S s → ∀ x ∈ A.pop s, x = p
  iter : ∀ s fxb, S s → Rests env p (A.iter s p fxb) fun r => S r.1 ∧ r.2.1 = p

/-- All iterations from such a state. -/
theorem Settles.loop {env : Env X} {p : X} {A : Alg X} {S : A.σ → Prop} (h : Settles env p A S) (ncb fuel : ℕ) {s : A.σ} (hs : S s) (fxb : Fl) :
    Rests env p (A.loop ncb fuel s p fxb) fun r => S r.1 ∧ r.2.1 = p := by
  induction fuel generalizing s fxb with
  | zero => exact .throw
  | succ fuel ih =>
    refine Rests.look.bindT fun v => .ite (fun _ => .pure' ⟨hs, rfl⟩) fun _ => ?_
    refine (Rests.fireAll (by exact ⟨h.pop s hs, rfl⟩)).bindT fun _ => (h.iter s fxb hs).bind' ?_
    rintro ⟨s', xb, fxb'⟩ ⟨hs', rfl⟩
    exact (Rests.fireAll (by exact ⟨h.pop s' hs', rfl⟩)).bindT fun _ => Rests.next.bindT fun _ => ih hs' fxb'

/-- **Stuck.** From the state `s` of the loop of `Algorithm.run`, with the best solution `p`, the rest of the run - whatever the limits, the random numbers and the values of the
objective - evaluates only `p`, shows callbacks only `p`, returns `p`, and does not change the best value if that is at least as good as what the objective gives at `p`. -/
def Stuck (env : Env X) (p : X) (A : Alg X) (s : A.σ) : Prop := ∀ ncb fuel fxb w,
  (∃ l, ((A.loop ncb fuel s p fxb).run env w).2.calls = w.calls ++ l ∧ ∀ c ∈ l, c.1 = p) ∧
  (∃ l, ((A.loop ncb fuel s p fxb).run env w).2.events = w.events ++ l ∧ ∀ e ∈ l, e.2.At p) ∧
  ((∀ k r, env.obj k p = .ok r → ¬ env.opt.mul r < env.opt.mul w.st.xf) → ((A.loop ncb fuel s p fxb).run env w).2.st.xf = w.st.xf) ∧
  ∀ r, ((A.loop ncb fuel s p fxb).run env w).1 = .ok r → (∀ x ∈ A.pop r.1, x = p) ∧ r.2.1 = p

theorem Settles.stuck {env : Env X} {p : X} {A : Alg X} {S : A.σ → Prop} (h : Settles env p A S) {s : A.σ} (hs : S s) : Stuck env p A s := fun ncb fuel fxb w =>
  have e := (h.loop ncb fuel hs fxb).out w
  ⟨e.1.calls, e.1.events, e.1.best, fun r hr => ⟨h.pop _ (e.2 r hr).1, (e.2 r hr).2⟩⟩

/-! ### Arithmetic -/

variable {D N : ℕ}

/-- What the arithmetic does with zero, on the coordinates of `p`. -/
structure Centre [Arith] (p : Vec D) : Prop where
  sub : ∀ j, p j - p j = .fin 0
  add : ∀ j, p j + .fin 0 = p j
  zero_add : ∀ j, .fin 0 + p j = p j
  sub_zero : ∀ j, p j - .fin 0 = p j
  mul : ∀ q : ℚ, Fl.fin q * .fin 0 = .fin 0
  zero_mul : ∀ q : ℚ, Fl.fin 0 * .fin q = .fin 0
  zero_zero : Fl.fin 0 + .fin 0 = .fin 0

/-- Without rounding, any finite point. -/
theorem centre_exact (fn : Fn → Fl → Fl) {p : Vec D} (hp : ∀ j, (p j).Real) : @Centre D (exactArith fn) p := by
  letI := exactArith fn
  refine ⟨fun j => ?_, fun j => ?_, fun j => ?_, fun j => ?_, fun q => ?_, fun q => ?_, ?_⟩
  · obtain ⟨q, hq⟩ := hp j
    rw [hq, Exact.sub_fin, sub_self]
  · obtain ⟨q, hq⟩ := hp j
    rw [hq, Exact.add_fin, _root_.add_zero]
  · obtain ⟨q, hq⟩ := hp j
    rw [hq, Exact.add_fin, _root_.zero_add]
  · obtain ⟨q, hq⟩ := hp j
    rw [hq, Exact.sub_fin, _root_.sub_zero]
  · rw [Exact.mul_fin, mul_zero]
  · rw [Exact.mul_fin, MulZeroClass.zero_mul]
  · rw [Exact.add_fin, _root_.add_zero]

/-- In double precision, any point whose coordinates are finite doubles. -/
theorem centre_float64 (fn : Fn → Fl → Fl) {p : Vec D} (hp : ∀ j, ∃ q, p j = .fin q ∧ Float64.IsF q ∧ |q| < 2 ^ 1024) : @Centre D (Float64.float64 fn) p := by
  letI := Float64.float64 fn
  have h0 : Float64.rnd 0 = .fin 0 := Float64.rnd_of_isF Float64.isF_zero (by norm_num)
  refine ⟨fun j => ?_, fun j => ?_, fun j => ?_, fun j => ?_, fun q => ?_, fun q => ?_, ?_⟩
  · obtain ⟨q, hq, h1, h2⟩ := hp j
    rw [hq]
    exact (Float64.sub_double h1 h1).trans (by rw [sub_self, h0])
  · obtain ⟨q, hq, h1, h2⟩ := hp j
    rw [hq]
    show Float64.rnd (q + 0) = _
    rw [_root_.add_zero, Float64.rnd_of_isF h1 h2]
  · obtain ⟨q, hq, h1, h2⟩ := hp j
    rw [hq]
    show Float64.rnd (0 + q) = _
    rw [_root_.zero_add, Float64.rnd_of_isF h1 h2]
  · obtain ⟨q, hq, h1, h2⟩ := hp j
    rw [hq]
    exact (Float64.sub_double h1 Float64.isF_zero).trans (by rw [_root_.sub_zero, Float64.rnd_of_isF h1 h2])
  · show Float64.rnd (q * 0) = _
    rw [mul_zero, h0]
  · show Float64.rnd (0 * q) = _
    rw [MulZeroClass.zero_mul, h0]
  · show Float64.rnd (0 + 0) = _
    rw [_root_.add_zero, h0]

variable [Arith] {p : Vec D} {env : Env (Vec D)} {B : Box D}

theorem Centre.scale (h : Centre p) {v : Fl} (hv : v.Real) : v * .fin 0 = .fin 0 := by
  obtain ⟨q, rfl⟩ := hv
  exact h.mul q

theorem Centre.scale' (h : Centre p) {v : Fl} (hv : v.Real) : .fin 0 * v = .fin 0 := by
  obtain ⟨q, rfl⟩ := hv
  exact h.zero_mul q

omit [Arith] in
theorem real_of_rand {r : Fl} (h : Fl.fin 0 ≤ r ∧ r < Fl.fin 1) : r.Real := by
  cases r with
  | fin q => exact ⟨q, rfl⟩
  | pinf => exact absurd h.2 (Fl.not_pinf_lt _)
  | ninf => exact absurd h.1 (by decide)
  | nan => exact absurd h.1 (by decide)

/-! ### Differential evolution -/

namespace DE

theorem parents_rests {n k : ℕ} {ic : Fin n} : Rests env p (parents n k ic) fun _ => True :=
  .ite (fun _ => .choiceOther) fun _ => .ite (fun _ => .choiceFin) fun _ => .choiceRep

theorem binomial_rests {cr : Fl} {j : Fin D} {old mutant : Vec D} (h1 : old = p) (h2 : mutant = p) : Rests env p (binomial cr j old mutant) fun y => y = p :=
  (Rests.tabM (P := fun i (v : Fl) => v = p i) fun i => Rests.rand.bindT fun r => .pure' (by rw [h1, h2]; split <;> rfl)).mono fun _ h => funext h

/-- A strategy that keeps a collapsed population together: applied to solutions that are all at `p`, with the best solution at `p`, it yields `p`. -/
structure Keeps (env : Env (Vec D)) (p : Vec D) (strat : Strategy D) : Prop where
  out : ∀ {n : ℕ} (pop : Fin n → Vec D) ic (f cr : Fl), (∀ i, pop i = p) → f.Real → Rests env p (strat pop ic f cr p) fun y => y = p

theorem strategy_keeps {k : ℕ} {mutant : {n : ℕ} → (Fin n → Vec D) → Fin n → (Fin k → Fin n) → Fl → Vec D → Vec D}
    (h : ∀ {n : ℕ} (pop : Fin n → Vec D) ic r f, (∀ i, pop i = p) → f.Real → mutant pop ic r f p = p) : Keeps env p (strategy k mutant) :=
  ⟨fun pop ic f cr hp hf => Rests.intFin.bindT fun j => parents_rests.bindT fun r => binomial_rests (hp ic) (h pop ic r f hp hf)⟩

/-- All strategies of `de.py`. -/
theorem Standard.keeps (hc : Centre p) {strat : Strategy D} (h : Standard strat) : Keeps env p strat := by
  have e1 : ∀ {f : Fl}, f.Real → ∀ j, p j + f * (p j - p j) = p j := fun hf j => by rw [hc.sub, hc.scale hf, hc.add]
  refine Standard.rec (motive := fun strat _ => Keeps env p strat) ?_ ?_ ?_ ?_ ?_ ?_ h
  all_goals
    refine strategy_keeps fun pop ic r f hp hf => funext fun j => ?_
    simp only [hp, e1 hf]

section
variable {E : Type} {opt : OptType} {l : List (Ind D E)}

theorem newInd_rests (hR : ∀ rng k, env.repairFn rng k p = p) {ext : E} {x : Vec D} (hx : x = p) : Rests env p (newInd opt ext x) fun e => e.x = p ∧ e.ext = ext := by
  refine Rests.bind' (P := fun i : Indiv D => i.x = p) ?_ fun i hi => .pure' ⟨hi, rfl⟩
  exact (Rests.repair hR hx).bind' fun y hy => (Rests.eval hy).bindT fun v => .pure' hy

/-- Evolving a population at `p`; `Q` is what the new individuals satisfy besides. -/
def Breeds (env : Env (Vec D)) (p : Vec D) (ev : Evolve D E) (Q : E → Prop) : Prop :=
  ∀ l : List (Ind D E), (∀ e ∈ l, e.x = p ∧ Q e.ext) → Rests env p (ev l p) fun new => ∀ i, (new i).x = p ∧ Q (new i).ext

theorem evolve_breeds (hR : ∀ rng k, env.repairFn rng k p = p) {strat : Strategy D} (hs : Keeps env p strat) {f : Fl} (hf : f.Real) (cr : Fl) (ext : E)
    {Q : E → Prop} (hQ : Q ext) : Breeds env p (evolve opt ext strat f cr) Q := fun l hl =>
  .tabM (P := fun _ (e : Ind D E) => e.x = p ∧ Q e.ext) fun i => (hs.out _ i f cr (fun k => (hl _ (l.get_mem k)).1) hf).bind' fun x hx => (newInd_rests hR hx).mono fun e he => ⟨he.1, he.2 ▸ hQ⟩

theorem evolveMulti_breeds (hR : ∀ rng k, env.repairFn rng k p = p) {strats : List (Strategy D)} (hs : ∀ st ∈ strats, Keeps env p st) {f : Fl} (hf : f.Real) (cr : Fl)
    (ext : E) {Q : E → Prop} (hQ : Q ext) : Breeds env p (evolveMulti opt ext strats f cr) Q := fun l hl => by
  refine .tabM (P := fun _ (e : Ind D E) => e.x = p ∧ Q e.ext) fun i => Rests.bind' (P := fun c : List (Ind D E) => ∀ e ∈ c, e.x = p ∧ Q e.ext) ?_ fun c hc => .argminRec hc
  exact .mapM' fun st hst => ((hs st hst).out _ i f cr (fun k => (hl _ (l.get_mem k)).1) hf).bind' fun x hx => (newInd_rests hR hx).mono fun e he => ⟨he.1, he.2 ▸ hQ⟩

theorem survivors_all {P : Ind D E → Prop} (hl : ∀ e ∈ l, P e) {new : Fin l.length → Ind D E} (hn : ∀ i, P (new i)) : ∀ e ∈ survivors l new, P e := by
  intro e he
  obtain ⟨i, rfl⟩ := List.mem_ofFn.1 he
  split
  · exact hn i
  · exact hl _ (l.get_mem i)

theorem best_rests (hl : ∀ e ∈ l, e.x = p) (fxb : Fl) : Rests env p (best l p fxb) fun r => r.1 = p :=
  .getBest (by simpa using hl) rfl

theorem iter_settles (B : Box D) {ev : Evolve D E} {Q : E → Prop} (hev : Breeds env p ev Q) (ext : E) {post : List (Ind D E) → Prog (Vec D) (List (Ind D E))}
    (hp : ∀ l : List (Ind D E), (∀ e ∈ l, e.x = p ∧ Q e.ext) → Rests env p (post l) fun l' => ∀ e ∈ l', e.x = p ∧ Q e.ext) :
    Settles env p (mk opt B N ext (iter ev select post)) fun l : List (Ind D E) => ∀ e ∈ l, e.x = p ∧ Q e.ext := by
  refine ⟨fun l hl x hx => ?_, fun l fxb hl => ?_⟩
  · obtain ⟨e, he, rfl⟩ := List.mem_map.1 hx
    exact (hl e he).1
  · refine (hev l hl).bind' fun new hn => ?_
    have hs := survivors_all (P := fun e => e.x = p ∧ Q e.ext) hl hn
    refine Rests.bind' (P := fun r : List (Ind D E) × Vec D × Fl => (∀ e ∈ r.1, e.x = p ∧ Q e.ext) ∧ r.2.1 = p) ?_ ?_
    · exact (best_rests (fun e he => (hs e he).1) fxb).bind' fun r hr => .pure' ⟨hs, hr⟩
    · rintro ⟨l', xb, fxb'⟩ ⟨hl', rfl⟩
      refine (hp l' hl').bind' fun l'' hl'' => (best_rests (fun e he => (hl'' e he).1) fxb').bind' fun r hr => .pure' ⟨hl'', hr⟩

theorem reduce_rests {pMax rp : ℕ} {Q : E → Prop} (l : List (Ind D E)) (hl : ∀ e ∈ l, e.x = p ∧ Q e.ext) :
    Rests env p (reduce pMax rp l) fun l' => ∀ e ∈ l', e.x = p ∧ Q e.ext := by
  refine Rests.look.bindT fun v => .ite (fun _ => .throw) fun _ => .ite (fun _ => .pure' fun e he => ?_) fun _ => .pure' hl
  obtain ⟨i, rfl⟩ := List.mem_ofFn.1 he
  simp only
  split <;> exact hl _ (List.get_mem ..)

end

variable {opt : OptType}

/-- **C99** for `DifferentialEvolution`: a population at `p` stays at `p`. -/
theorem C99_de (hc : Centre p) (hR : ∀ rng k, env.repairFn rng k p = p) (B : Box D) (N : ℕ) {strat : Strategy D} (hs : Standard strat) {f : Fl} (hf : f.Real) (cr : Fl)
    {l : List (Ind D Unit)} (hl : ∀ e ∈ l, e.x = p) : Stuck env p (alg opt B N strat f cr) l :=
  (iter_settles B (evolve_breeds hR (hs.keeps hc) hf cr () (Q := fun _ => True) trivial) () fun _ h => .pure' h).stuck fun e he => ⟨hl e he, trivial⟩

/-- **C99** for `MultiStrategyDifferentialEvolution`. -/
theorem C99_multi (hc : Centre p) (hR : ∀ rng k, env.repairFn rng k p = p) (B : Box D) (N : ℕ) {strats : List (Strategy D)} (hs : ∀ st ∈ strats, Standard st) {f : Fl}
    (hf : f.Real) (cr : Fl) {l : List (Ind D Unit)} (hl : ∀ e ∈ l, e.x = p) : Stuck env p (algMulti opt B N strats f cr) l :=
  (iter_settles B (evolveMulti_breeds hR (fun st h => (hs st h).keeps hc) hf cr () (Q := fun _ => True) trivial) () fun _ h => .pure' h).stuck fun e he => ⟨hl e he, trivial⟩

/-- **C99** for `DynNpDifferentialEvolution`. -/
theorem C99_dyn (hc : Centre p) (hR : ∀ rng k, env.repairFn rng k p = p) (B : Box D) (N : ℕ) {strat : Strategy D} (hs : Standard strat) {f : Fl} (hf : f.Real) (cr : Fl)
    (pMax rp : ℕ) {l : List (Ind D Unit)} (hl : ∀ e ∈ l, e.x = p) : Stuck env p (algDyn opt B N strat f cr pMax rp) l :=
  (iter_settles B (evolve_breeds hR (hs.keeps hc) hf cr () (Q := fun _ => True) trivial) () (reduce_rests (Q := fun _ => True))).stuck fun e he => ⟨hl e he, trivial⟩

/-- **C99** for `DynNpMultiStrategyDifferentialEvolution`. -/
theorem C99_dyn_multi (hc : Centre p) (hR : ∀ rng k, env.repairFn rng k p = p) (B : Box D) (N : ℕ) {strats : List (Strategy D)} (hs : ∀ st ∈ strats, Standard st) {f : Fl}
    (hf : f.Real) (cr : Fl) (pMax rp : ℕ) {l : List (Ind D Unit)} (hl : ∀ e ∈ l, e.x = p) : Stuck env p (algDynMulti opt B N strats f cr pMax rp) l :=
  (iter_settles B (evolveMulti_breeds hR (fun st h => (hs st h).keeps hc) hf cr () (Q := fun _ => True) trivial) () (reduce_rests (Q := fun _ => True))).stuck fun e he => ⟨hl e he, trivial⟩

end DE

/-! ### Self-adaptive differential evolution -/

namespace JDE
variable {opt : OptType}

/-- What the control parameter `F` can become is finite. -/
def Par.Finite (q : Par) : Prop := ∀ r, Fl.fin 0 ≤ r ∧ r < Fl.fin 1 → (q.fLo + r * (q.fUp - q.fLo)).Real

theorem evolve_breeds (hR : ∀ rng k, env.repairFn rng k p = p) {strat : DE.Strategy D} (hs : DE.Keeps env p strat) {q : Par} (hq : q.Finite) :
    DE.Breeds env p (evolve strat q) fun e : SA => e.f.Real := fun l hl => by
  refine Rests.bind' (Rests.tabM (P := fun _ (e : SA) => e.f.Real) fun i => ?_) fun ps hps => ?_
  · refine Rests.bind' (P := fun f : Fl => f.Real) ?_ fun f hf => Rests.bindT (P := fun _ => True) ?_ fun cr => .pure' hf
    · exact Rests.rand.bindT fun c => .ite (fun _ => Rests.rand.bind' fun r hr => .pure' (hq r hr)) fun _ => .pure' (hl _ (l.get_mem i)).2
    · exact Rests.rand.bindT fun c => .ite (fun _ => Rests.rand.any) fun _ => .pure' trivial
  · refine Rests.bind' (P := fun xs : Fin l.length → Vec D => ∀ i, xs i = p) ?_ fun xs hxs => ?_
    · refine .forFin _ (fun i => (hl _ (l.get_mem i)).1) fun i xs hxs => (hs.out _ i _ _ hxs (hps i)).bind' fun x hx => .pure' fun k => ?_
      rw [Function.update_apply]
      split
      · exact hx
      · exact hxs k
    · exact .tabM (P := fun _ (e : DE.Ind D SA) => e.x = p ∧ e.ext.f.Real) fun i => (Rests.repair hR (hxs i)).bind' fun x hx => (Rests.eval hx).bindT fun v => .pure' ⟨hx, hps i⟩

/-- **C99** for `SelfAdaptiveDifferentialEvolution`. -/
theorem C99_jde (hc : Centre p) (hR : ∀ rng k, env.repairFn rng k p = p) (B : Box D) (N : ℕ) {strat : DE.Strategy D} (hs : DE.Standard strat) {q : Par} (hq : q.Finite)
    {l : List (DE.Ind D SA)} (hl : ∀ e ∈ l, e.x = p ∧ e.ext.f.Real) : Stuck env p (alg opt B N strat q) l :=
  (DE.iter_settles B (evolve_breeds hR (hs.keeps hc) hq) _ fun _ h => .pure' h).stuck hl

/-- **C99** for `MultiStrategySelfAdaptiveDifferentialEvolution`. -/
theorem C99_jde_multi (hc : Centre p) (hR : ∀ rng k, env.repairFn rng k p = p) (B : Box D) (N : ℕ) {strats : List (DE.Strategy D)} (hs : ∀ st ∈ strats, DE.Standard st)
    {f : Fl} (hf : f.Real) (cr : Fl) {l : List (DE.Ind D SA)} (hl : ∀ e ∈ l, e.x = p) : Stuck env p (algMulti opt B N strats f cr) l :=
  (DE.iter_settles B (DE.evolveMulti_breeds hR (fun st h => (hs st h).keeps hc) hf cr _ (Q := fun _ => True) trivial) _ fun _ h => .pure' h).stuck fun e he => ⟨hl e he, trivial⟩

end JDE

/-! ### Lévy flights -/

/-- No step of a Lévy flight (util/random.py:8-25) is infinite or NaN, and no normally distributed number is. -/
structure FiniteSteps (env : Env (Vec D)) : Prop where
  levy : ∀ k k', (lit 1 100 * env.rng.dist k .normal 0 levySigma / Arith.pow (Fl.abs (env.rng.dist k' .normal 0 1)) (1 / lit 3 2)).Real
  norm : ∀ k, (env.rng.dist k .normal 0 1).Real

theorem levyVec_rests (hl : FiniteSteps env) : Rests env p (levyVec D : Prog (Vec D) (Vec D)) fun l => ∀ j, (l j).Real := by
  refine Rests.normVec.bind' fun u hu => Rests.normVec.bind' fun v hv => .pure' fun j => ?_
  obtain ⟨k, hk⟩ := hu j
  obtain ⟨k', hk'⟩ := hv j
  rw [hk, hk']
  exact hl.levy k k'

omit [Arith] in
theorem ofFn_all {x : Fin N → Vec D} (h : ∀ i, x i = p) : ∀ y ∈ List.ofFn x, y = p := fun y hy => by
  obtain ⟨i, rfl⟩ := List.mem_ofFn.1 hy
  exact h i

omit [Arith] in
theorem update_all {x : Fin N → Vec D} (h : ∀ i, x i = p) {y : Vec D} (hy : y = p) (i : Fin N) : ∀ k, Function.update x i y k = p := fun k => by
  rw [Function.update_apply]
  split
  · exact hy
  · exact h k

omit [Arith] in
theorem keepBetter_all {x y : Fin N → Vec D} (h : ∀ i, x i = p) (hy : ∀ i, y i = p) (f g : Fin N → Fl) : ∀ i, (keepBetter x y f g).1 i = p := fun i => by
  simp only [keepBetter]
  split
  · exact hy i
  · exact h i

theorem CS.getCuckoos_rests (hc : Centre p) (hR : ∀ rng k, env.repairFn rng k p = p) (hl : FiniteSteps env) {pop : Fin N → Vec D} (hs : ∀ i, pop i = p) :
    Rests env p (getCuckoos pop p) fun new => ∀ i, new i = p := by
  refine Rests.bind' (P := fun l : Fin N → Vec D => ∀ i j, (l i j).Real) ?_ fun l h => (Rests.tabM fun i => Rests.normVec).bind' fun z hz => .repairRows hR fun i => funext fun j => ?_
  · refine (Rests.tabM fun i => Rests.normVec).bind' fun u hu => (Rests.tabM fun i => Rests.normVec).bind' fun v hv => .pure' fun i j => ?_
    obtain ⟨k, hk⟩ := hu i j
    obtain ⟨k', hk'⟩ := hv i j
    rw [hk, hk']
    exact hl.levy k k'
  · obtain ⟨k, hk⟩ := hz i j
    rw [hs i, hc.sub, hc.scale (h i j), hk, hc.scale' (hl.norm k), hc.add]

theorem CS.emptyNests_rests (hc : Centre p) (hR : ∀ rng k, env.repairFn rng k p = p) (pa : Fl) {pop : Fin N → Vec D} (hs : ∀ i, pop i = p) :
    Rests env p (emptyNests pa pop) fun new => ∀ i, new i = p := by
  refine (Rests.tabM fun i => Rests.randVec).bindT fun a => Rests.permIdx.bindT fun i => Rests.permIdx.bindT fun j => Rests.rand.bind' fun r hr =>
    .repairRows hR fun k => funext fun d => ?_
  have : (if pa < a k d then (1 : Fl) else 0).Real := by split <;> exact ⟨_, rfl⟩
  rw [hs, hs, hs, hc.sub, hc.scale (real_of_rand hr), hc.scale' this, hc.add]

/-- **C99** for `CuckooSearch`. -/
theorem CS.C99_cs (hc : Centre p) (hR : ∀ rng k, env.repairFn rng k p = p) (hl : FiniteSteps env) (B : Box D) (N : ℕ) (pa : Fl) {s : St D N} (hs : ∀ i, s.pop i = p) :
    Stuck env p (alg B N pa) s := by
  refine Settles.stuck (S := fun s : St D N => ∀ i, s.pop i = p) ⟨fun s hs => ofFn_all hs, fun s fxb hs => ?_⟩ hs
  refine (getCuckoos_rests hc hR hl hs).bind' fun new hn => (Rests.evalRows hn).bindT fun newF => ?_
  have h1 := keepBetter_all hs hn (St.fit s) newF
  refine (Rests.getBest (ofFn_all h1) rfl).bind' ?_
  rintro ⟨xb, fxb'⟩ hb
  obtain rfl : xb = p := hb
  refine (emptyNests_rests hc hR pa h1).bind' fun new2 hn2 => (Rests.evalRows hn2).bindT fun newF2 => ?_
  have h2 := keepBetter_all h1 hn2 (keepBetter (St.pop s) new (St.fit s) newF).2 newF2
  exact (Rests.getBest (ofFn_all h2) rfl).bind' fun b hb => .pure' ⟨h2, hb⟩

/-- **C99** for `FlowerPollinationAlgorithm`. The positions it tried last (`sols`) are part of its state. -/
theorem FPA.C99_fpa (hc : Centre p) (hR : ∀ rng k, env.repairFn rng k p = p) (hl : FiniteSteps env) (B : Box D) (N : ℕ) (q : Fl) {s : St D N}
    (hs : ∀ i, s.pop i = p) (hs' : ∀ i, s.sols i = p) : Stuck env p (alg B N q) s := by
  refine Settles.stuck (S := fun s : St D N => (∀ i, s.pop i = p) ∧ ∀ i, s.sols i = p) ⟨fun s hs => ofFn_all hs.1, fun s fxb hs => ?_⟩ ⟨hs, hs'⟩
  refine .forFin (fun a : St D N × Vec D × Fl => ((∀ i, a.1.pop i = p) ∧ ∀ i, a.1.sols i = p) ∧ a.2.1 = p) ⟨hs, rfl⟩ ?_
  rintro i ⟨s, xb, fxb⟩ ⟨⟨h1, h2⟩, rfl⟩
  refine Rests.bind' (P := fun y : Vec D => y = xb) ?_ fun y hy => (Rests.eval hy).bindT fun v => .pure' ?_
  · refine Rests.rand.bindT fun r => .ite (fun _ => (levyVec_rests hl).bind' fun l hl => .repair hR (funext fun j => ?_)) fun _ =>
      Rests.choiceFin.bindT fun jk => Rests.rand.bind' fun r hr => .repair hR (funext fun d => ?_)
    · rw [h1, hc.sub, hc.scale (hl j), hc.add]
    · rw [h1, h1, h2, hc.sub, hc.scale (real_of_rand hr), hc.add]
  · have h3 := update_all h2 hy i
    have h4 := update_all h1 hy i
    refine ⟨?_, ?_⟩
    · by_cases hv : v ≤ s.fit i
      · rw [if_pos hv]; exact ⟨h4, h3⟩
      · rw [if_neg hv]; exact ⟨h1, h3⟩
    · show (getBest1 y v xb fxb).1 = xb
      unfold getBest1
      split
      · exact hy
      · rfl

/-- **C99** for `MothFlameOptimizer`. `t` is `(a - 1) * random + 1`; the exponential and the cosine of it have to be finite, with a finite product. -/
theorem MFO.C99_mfo (hc : Centre p) (hR : ∀ rng k, env.repairFn rng k p = p)
    (he : ∀ iters r, Fl.fin 0 ≤ r ∧ r < Fl.fin 1 → (Arith.fn .exp (1 * ((slope iters env.maxIters - 1) * r + 1))).Real ∧
      (Arith.fn .cos (Fl.ofNat 2 * piF * ((slope iters env.maxIters - 1) * r + 1))).Real)
    (B : Box D) (N : ℕ) {s : St D N} (hs : ∀ i, s.pop i = p) : Stuck env p (alg B N) s := by
  refine Settles.stuck (S := fun s : St D N => ∀ i, s.pop i = p) ⟨fun s hs => ofFn_all hs, fun s fxb hs => ?_⟩ hs
  have hlook : Rests env p (Prog.look : Prog (Vec D) TaskView) fun v => v.maxIters = env.maxIters := ⟨fun w => by
    rw [Prog.run_look]
    exact ⟨.same rfl rfl rfl, fun a ha => by cases ha; rfl⟩⟩
  have habs : Fl.abs (.fin 0) = .fin 0 := by decide
  refine Rests.sortIdx.bindT fun si => hlook.bind' fun v hv => (Rests.ofExcept (P := fun _ => True) fun _ _ => trivial).bindT fun fn => ?_
  refine Rests.bind' (Rests.tabM (P := fun _ (y : Vec D) => y = p) fun i => ?_) fun pop hp => ?_
  · refine Rests.bind' (Rests.ofExcept (P := fun f : Vec D => f = p) fun f hf => ?_) fun f hf => ?_
    · split at hf
      · cases hf; exact hs _
      · unfold pyIndex rowAt at hf
        split at hf
        all_goals
          split at hf
          · cases hf; exact hs _
          · cases hf
    · refine (Rests.tabM (P := fun j (v : Fl) => v = p j) fun j => Rests.rand.bind' fun r hr => .pure' ?_).mono fun _ h => funext h
      rw [hv, hs, hs, hf, hc.sub, habs, hc.scale' (he _ r hr).1, hc.scale' (he _ r hr).2, hc.zero_add]
  · exact (Rests.repairRows hR hp).bind' fun pop hp => (Rests.evalRows hp).bindT fun fit => (Rests.getBest (ofFn_all hp) rfl).bind' fun b hb => .pure' ⟨hp, hb⟩

/-- **C99** for `MonkeyKingEvolutionV2`. -/
theorem MKE.C99_mke2 (hc : Centre p) (hR : ∀ rng k, env.repairFn rng k p = p) (opt : OptType) (B : Box D) (N : ℕ) {q : Par}
    (hf : ∀ r, Fl.fin 0 ≤ r ∧ r < Fl.fin 1 → (q.fluct * r).Real) (hfc : q.fc.Real) {s : Fin N → Ind D} (hs : ∀ i, (s i).x = p ∧ (s i).pb = p) :
    Stuck env p (alg opt B N q true) s := by
  have hcrown : ∀ s : Fin N → Ind D, (∀ i, (s i).x = p ∧ (s i).pb = p) → Rests env p (crown q s) fun s => ∀ i, (s i).x = p ∧ (s i).pb = p := fun s hs =>
    Rests.choiceFin.bindT fun idx => .pure' fun i => by split <;> exact hs i
  refine Settles.stuck (S := fun s : Fin N → Ind D => ∀ i, (s i).x = p ∧ (s i).pb = p)
    ⟨fun s hs => ofFn_all (x := fun i => (s i).x) fun i => (hs i).1, fun s fxb hs => ?_⟩ hs
  refine Rests.bind' (P := fun s : Fin N → Ind D => ∀ i, (s i).x = p ∧ (s i).pb = p) (.forFin _ hs fun i s hs => ?_) fun s hs => (hcrown s hs).bind' fun s hs =>
    (Rests.getBest (ofFn_all (x := fun i => (s i).x) fun i => (hs i).1) rfl).bind' fun b hb => .pure' ⟨hs, hb⟩
  refine Rests.bind' (P := fun r : Vec D × Fl => r.1 = p) ?_ fun r hr => .pure' fun k => ?_
  · refine .ite (fun _ => ?_) fun _ => ?_
    · rw [if_pos rfl]
      refine .forFin (fun r : Vec D × Fl => r.1 = p) (hs i).1 fun _ b hb => Rests.choiceFin.bindT fun r => (Rests.repair hR (funext fun j => ?_)).bind' fun a ha =>
        (Rests.eval ha).bindT fun v => .pure' ?_
      · rw [(hs _).1, (hs _).1, (hs _).1, hc.sub, hc.scale hfc, hc.sub_zero]
      · unfold betterLt
        split
        · exact ha
        · exact hb
    · refine Rests.randVec.bind' fun r hr => (Rests.repair hR (funext fun j => ?_)).bind' fun y hy => (Rests.eval hy).bindT fun v => .pure' hy
      rw [(hs _).1, (hs _).2, hc.sub, hc.scale (hf _ (hr j)), hc.add]
  · rw [Function.update_apply]
    split
    · unfold Ind.updateBest
      split
      · exact ⟨hr, hr⟩
      · exact ⟨hr, (hs i).2⟩
    · exact hs k

/-! ### Particle swarms -/

namespace PSO

/-- Coefficients that leave particles at rest at rest: the products with random numbers are finite and `self.repair` does not change a velocity of zero. -/
structure Par.AtRest (q : Par D) : Prop where
  c1 : ∀ r, Fl.fin 0 ≤ r ∧ r < Fl.fin 1 → (q.c1 * r).Real
  c2 : ∀ r, Fl.fin 0 ≤ r ∧ r < Fl.fin 1 → (q.c2 * r).Real
  w : ∀ j, (q.w j).Real
  rep : q.rep (fun _ => .fin 0) q.vmin q.vmax = fun _ => .fin 0

/-- The mean of `N` copies of `p` is `p` (exact arithmetic; in double precision the mean may be rounded). -/
def MeanLaw (N : ℕ) (p : Vec D) : Prop := ∀ rows : Fin N → Vec D, (∀ i, rows i = p) → mean rows = p

theorem center_rests {c : Bool} (hm : c = true → MeanLaw N p) {s : St D N} (hs : ∀ i, s.pop i = p) (fxb : Fl) : Rests env p (center c s p fxb) fun b => b.1 = p := by
  unfold center
  refine .ite (fun h => (Rests.eval (hm h s.pop hs)).bindT fun fc => .pure' ?_) fun _ => .pure' rfl
  split
  · exact hm h s.pop hs
  · rfl

/-- **C99** for `ParticleSwarmAlgorithm`, `ParticleSwarmOptimization` and `CenterParticleSwarmOptimization`: particles without velocity whose personal bests are at `p` too. -/
theorem C99_pso (hc : Centre p) (hR : ∀ rng k, env.repairFn rng k p = p) (B : Box D) (N : ℕ) {q : Par D} (hq : q.AtRest) (c : Bool) (hm : c = true → MeanLaw N p)
    {s : St D N} (hs : ∀ i, s.pop i = p) (hpb : ∀ i, s.pb i = p) (hv : ∀ i, s.v i = fun _ => .fin 0) : Stuck env p (alg B N q false c 0) s := by
  refine Settles.stuck (S := fun s : St D N => (∀ i, s.pop i = p) ∧ (∀ i, s.pb i = p) ∧ ∀ i, s.v i = fun _ => .fin 0)
    ⟨fun s hs => ofFn_all hs.1, fun s fxb hs => ?_⟩ ⟨hs, hpb, hv⟩
  refine Rests.bind' (P := fun a : St D N × Vec D × Fl => ((∀ i, a.1.pop i = p) ∧ (∀ i, a.1.pb i = p) ∧ ∀ i, a.1.v i = fun _ => .fin 0) ∧ a.2.1 = p)
    (.forFin _ ⟨hs, rfl⟩ ?_) ?_
  · rintro i ⟨s, xb, fxb⟩ ⟨⟨h1, h2, h3⟩, rfl⟩
    refine Rests.bind' (P := fun v : Vec D => v = fun _ => .fin 0) ?_ fun v hv => Rests.bind' (P := fun x : Vec D => x = xb) (.repair hR (funext fun j => ?_)) fun x hx =>
      (Rests.eval hx).bindT fun f => .pure' ?_
    · refine Rests.randVec.bind' fun r1 hr1 => Rests.randVec.bind' fun r2 hr2 => .pure' ?_
      have e : (fun j => q.w j * s.v i j + q.c1 * r1 j * (s.pb i j - s.pop i j) + q.c2 * r2 j * (xb j - s.pop i j)) = fun _ => Fl.fin 0 := funext fun j => by
        rw [h1, h2, h3, hc.sub, hc.scale (hq.w j), hc.scale (hq.c1 _ (hr1 j)), hc.scale (hq.c2 _ (hr2 j)), hc.zero_zero, hc.zero_zero]
      exact (congrArg (fun v => q.rep v q.vmin q.vmax) e).trans hq.rep
    · rw [h1, hv, hc.add]
    · refine ⟨⟨update_all h1 hx i, update_all h2 ?_ i, update_all (p := fun _ => .fin 0) h3 hv i⟩, ?_⟩
      · split
        · exact hx
        · exact h2 i
      · unfold global betterLt
        split
        · rfl
        · split
          · exact hx
          · rfl
  · rintro ⟨s, xb, fxb⟩ ⟨hs, rfl⟩
    refine Rests.bind' (center_rests hm hs.1 fxb) ?_
    rintro ⟨xb', fxb'⟩ hb
    exact .pure' ⟨hs, hb⟩

end PSO

/-! ### The Nelder-Mead method -/

namespace NM

theorem away_centre (hc : Centre p) {c : Fl} (h : c.Real) : away c p p = p := funext fun j => by
  unfold away
  rw [hc.sub, hc.scale h, hc.add]

/-- Finite coefficients. -/
structure Par.Finite (q : Par) : Prop where
  alpha : q.alpha.Real
  gamma : q.gamma.Real
  rho : q.rho.Real
  sigma : q.sigma.Real

theorem method_rests (hc : Centre p) {q : Par} (hq : q.Finite) (hm : ∀ rows : Fin N → Vec D, (∀ i, rows i = p) → centroid rows = p) {s : St D N} (hs : ∀ i, s.pop i = p) :
    Rests env p (method q s) fun s => ∀ i, s.pop i = p := by
  unfold method
  split
  · rename_i h
    have hset : ∀ x v, x = p → ∀ i, (setLast s h x v).pop i = p := fun x v hx => update_all hs hx _
    rw [hm s.pop hs, hs]
    dsimp only
    rw [away_centre hc hq.alpha]
    refine (Rests.eval rfl).bindT fun rs => Rests.bindT (P := fun _ => True) ?_ fun b => .ite (fun _ => .pure' (hset _ _ rfl)) fun _ => .ite (fun _ => ?_) fun _ => ?_
    · unfold reflects
      refine .ite (fun _ => ?_) fun _ => .pure' trivial
      split
      · exact .pure' trivial
      · exact .throw
    · unfold expand
      rw [hs]
      dsimp only
      rw [away_centre hc hq.gamma]
      refine (Rests.eval rfl).bindT fun re => .pure' ?_
      split <;> exact hset _ _ rfl
    · unfold contract
      rw [hs]
      dsimp only
      rw [away_centre hc hq.rho]
      refine (Rests.eval rfl).bindT fun rc => .ite (fun _ => .pure' (hset _ _ rfl)) fun _ => ?_
      have hsh : ∀ i, shrunk q s i = p := fun i => funext fun j => by
        unfold shrunk
        rw [hs, hs, hc.sub, hc.scale hq.sigma, hc.add]
      refine (Rests.evalRows hsh).bindT fun f => .pure' fun i => ?_
      simp only [setTail]
      split
      · exact hs i
      · exact hsh _
  · exact .throw

/-- **C99** for `NelderMeadMethod`: a simplex of size zero. (`N` copies of `p` have to have the centroid `p`, as in exact arithmetic.) -/
theorem C99_nm (hc : Centre p) (B : Box D) (N : ℕ) {q : Par} (hq : q.Finite) (hm : ∀ rows : Fin N → Vec D, (∀ i, rows i = p) → centroid rows = p) {s : St D N}
    (hs : ∀ i, s.pop i = p) : Stuck env p (alg B N q) s := by
  refine Settles.stuck (S := fun s : St D N => ∀ i, s.pop i = p) ⟨fun s hs => ofFn_all hs, fun s fxb hs => ?_⟩ hs
  exact Rests.sortIdx.bindT fun si => Rests.bind' (method_rests hc hq hm fun i => hs (si i)) fun s hs => (Rests.getBest (ofFn_all hs) rfl).bind' fun b hb => .pure' ⟨hs, hb⟩

end NM

/-! ### Means without rounding -/

omit [Arith] in
theorem vsum_const (fn : Fn → Fl → Fl) (n : ℕ) (q : ℚ) : letI := exactArith fn; vsum (fun _ : Fin n => Fl.fin q) = .fin (n * q) := by
  letI := exactArith fn
  have : ∀ (n : ℕ) (a : ℚ), (List.replicate n (Fl.fin q)).foldl (· + ·) (Fl.fin a) = .fin (a + n * q) := by
    intro n
    induction n with
    | zero => intro a; simp
    | succ n ih =>
      intro a
      rw [List.replicate_succ, List.foldl_cons, Exact.add_fin, ih]
      congr 1
      push_cast
      ring
  unfold vsum
  rw [List.ofFn_const]
  have h0 : (0 : Fl) = .fin 0 := congrArg Fl.fin Nat.cast_zero
  rw [h0, this n 0, _root_.zero_add]

omit [Arith] in
/-- Without rounding the mean of copies of a finite point is the point. -/
theorem PSO.meanLaw_exact (fn : Fn → Fl → Fl) {N : ℕ} (hN : 0 < N) {p : Vec D} (hp : ∀ j, (p j).Real) : @MeanLaw D (exactArith fn) N p := by
  letI := exactArith fn
  intro rows h
  funext j
  obtain ⟨q, hq⟩ := hp j
  have e : (fun i => rows i j) = fun _ : Fin N => Fl.fin q := funext fun i => by rw [h i, hq]
  have hN' : (N : ℚ) ≠ 0 := by exact_mod_cast hN.ne'
  show vsum (fun i => rows i j) / Fl.ofNat N = p j
  rw [e, vsum_const, hq, Exact.ofNat_fin, Exact.div_fin fn _ _ hN', mul_div_cancel_left₀ _ hN']

omit [Arith] in
/-- Without rounding the centroid of copies of a finite point is the point (two points are needed, see C66). -/
theorem NM.centroid_exact (fn : Fn → Fl → Fl) {N : ℕ} (hN : 2 ≤ N) {p : Vec D} (hp : ∀ j, (p j).Real) (rows : Fin N → Vec D) (h : ∀ i, rows i = p) :
    @centroid (exactArith fn) D N rows = p := by
  letI := exactArith fn
  funext j
  obtain ⟨q, hq⟩ := hp j
  have e : (fun i : Fin (N - 1) => rows ⟨i, by omega⟩ j) = fun _ : Fin (N - 1) => Fl.fin q := funext fun i => by rw [h, hq]
  have hN' : ((N - 1 : ℕ) : ℚ) ≠ 0 := by exact_mod_cast (by omega : N - 1 ≠ 0)
  show vsum (fun i : Fin (N - 1) => rows ⟨i, by omega⟩ j) / Fl.ofNat (N - 1) = p j
  rw [e, vsum_const, hq, Exact.ofNat_fin, Exact.div_fin fn _ _ hN', mul_div_cancel_left₀ _ hN']

end NiaPy
