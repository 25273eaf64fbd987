import Verif.LongerAlgs
import Mathlib.Data.Set.Card
import Mathlib.Order.Interval.Set.Infinite

/-!
# The objective is a black box

An algorithm learns about the objective function only what it returns at the points it is called with. So a run is determined by these values, what happens
up to some call does not depend on what later calls return, and no finite number of evaluations tells anything about the remaining points.
-/

namespace NiaPy
variable {X α : Type}

/-- The same task, seed and callbacks with another objective function. -/
def Env.withObj (env : Env X) (f : ℕ → X → Except PyErr Fl) : Env X := { env with obj := f }

theorem stepOp_withObj (env : Env X) (f : ℕ → X → Except PyErr Fl) (w : World X) (o : Op X) (h : ∀ x, o = .eval x → stoppingCondition env.toTaskCfg w.st = false →
    f w.st.evals x = env.obj w.st.evals x) : stepOp (env.withObj f) w o = stepOp env w o := by
  cases o with
  | eval x =>
    have hs : stoppingCondition (env.withObj f).toTaskCfg w.st = stoppingCondition env.toTaskCfg w.st := rfl
    simp only [stepOp, evalTask, hs]
    by_cases hc : stoppingCondition env.toTaskCfg w.st = true
    · rw [if_pos hc, if_pos hc]
    · rw [if_neg hc, if_neg hc]
      have := h x rfl (by simpa using hc)
      simp only [Env.withObj, this]
  | repair s x => cases s <;> rfl
  | _ => rfl

theorem stepOp_calls (env : Env X) (w : World X) (hw : w.calls.length = w.st.evals) (o : Op X) :
    ((stepOp env w o).2.calls.length = (stepOp env w o).2.st.evals) ∧
      ∀ x, o = .eval x → stoppingCondition env.toTaskCfg w.st = false → (stepOp env w o).2.calls = w.calls ++ [(x, env.obj w.st.evals x)] := by
  constructor
  · rcases stepOp_cases env w o with ⟨hs, hc⟩ | ⟨hs, hc⟩ | ⟨x, -, hs, hc⟩
    · rw [hs, hc]; exact hw
    · rw [hs, hc]; exact hw
    · rw [hs, hc]
      rcases evalTask_cases env.toTaskCfg w.st x with ⟨_, he⟩ | ⟨_, e, _, he⟩ | ⟨_, r, _, he⟩
      · rw [he]; simpa using hw
      · rw [he]; simp [hw]
      · rw [he]; simp [hw]
  · rintro x rfl hc
    simp only [stepOp, evalTask, hc, Bool.false_eq_true, if_false]
    cases env.obj w.st.evals x <;> rfl

/-- If another objective function returns the same at the first `n` calls of a run, its run is the same run, or has the same first `n` calls. -/
theorem run_withObj (env : Env X) (f : ℕ → X → Except PyErr Fl) (n : ℕ) (p : Prog X α) : ∀ w : World X, w.calls.length = w.st.evals →
    (∀ k c, k < n → (p.run env w).2.calls[k]? = some c → f k c.1 = env.obj k c.1) →
    p.run (env.withObj f) w = p.run env w ∨
      n ≤ (p.run env w).2.calls.length ∧ n ≤ (p.run (env.withObj f) w).2.calls.length ∧ (p.run (env.withObj f) w).2.calls.take n = (p.run env w).2.calls.take n := by
  induction p with
  | pure a => exact fun w _ _ => .inl rfl
  | throw e => exact fun w _ _ => .inl rfl
  | op o k ih =>
    intro w hw h
    have hc := stepOp_calls env w hw o
    have hp : (stepOp env w o).2.calls <+: ((Prog.op o k).run env w).2.calls := calls_prefix env (k (stepOp env w o).1) (stepOp env w o).2
    by_cases hn : n ≤ w.calls.length
    · obtain ⟨l, hl⟩ := calls_prefix env (.op o k) w
      obtain ⟨l', hl'⟩ := calls_prefix (env.withObj f) (.op o k) w
      refine .inr ⟨?_, ?_, ?_⟩
      · rw [← hl, List.length_append]; omega
      · rw [← hl', List.length_append]; omega
      · rw [← hl, ← hl', List.take_append_of_le_length hn, List.take_append_of_le_length hn]
    · have he : stepOp (env.withObj f) w o = stepOp env w o := by
        refine stepOp_withObj env f w o fun x hx hs => ?_
        obtain ⟨l, hl⟩ := hp
        have := h w.calls.length (x, env.obj w.st.evals x) (by omega) (by
          rw [← hl, hc.2 x hx hs]
          simp)
        rw [← hw]
        exact this
      have := ih (stepOp env w o).1 (stepOp env w o).2 hc.1 h
      simp only [Prog.run, he]
      exact this

/-- **C100.** A run is determined by what the objective function returns at the points at which the run calls it. -/
theorem C100_same (A : Alg X) (env : Env X) (main : Bool) (ncb fuel : ℕ) (f : ℕ → X → Except PyErr Fl)
    (h : ∀ k c, (A.exec env main ncb fuel).2.calls[k]? = some c → f k c.1 = env.obj k c.1) : A.exec (env.withObj f) main ncb fuel = A.exec env main ncb fuel := by
  rcases run_withObj env f ((A.exec env main ncb fuel).2.calls.length + 1) (A.run env.opt main ncb fuel) (World.init env.opt) rfl fun k c _ => h k c with h | h
  · exact h
  · exact absurd h.1 (by unfold Alg.exec; omega)

/-- **C100.** The first `n` calls of the objective function do not depend on what later calls return. -/
theorem C100_causal (A : Alg X) (env : Env X) (main : Bool) (ncb fuel n : ℕ) (f : ℕ → X → Except PyErr Fl)
    (h : ∀ k c, k < n → (A.exec env main ncb fuel).2.calls[k]? = some c → f k c.1 = env.obj k c.1) :
    (A.exec (env.withObj f) main ncb fuel).2.calls.take n = (A.exec env main ncb fuel).2.calls.take n := by
  rcases run_withObj env f n (A.run env.opt main ncb fuel) (World.init env.opt) rfl h with h | h
  · exact congrArg (fun r => r.2.calls.take n) h
  · exact h.2.2

open Classical in
/-- The objective function with other values at the point `p`. -/
noncomputable def Env.hiding (env : Env X) (p : X) (g : ℕ → Except PyErr Fl) : Env X := env.withObj fun k x => if x = p then g k else env.obj k x

/-- The objective function may return anything at a point the run does not evaluate. -/
theorem C100_unseen (A : Alg X) (env : Env X) (main : Bool) (ncb fuel : ℕ) {p : X} (hp : ∀ c ∈ (A.exec env main ncb fuel).2.calls, c.1 ≠ p)
    (g : ℕ → Except PyErr Fl) : A.exec (env.hiding p g) main ncb fuel = A.exec env main ncb fuel :=
  C100_same A env main ncb fuel _ fun _ c hc => if_neg (hp c (List.mem_of_getElem? hc))

/-- **C100.** Among more points than `max_evals` there is one at which the objective function may return anything without any change of the run. -/
theorem C100_budget (A : Alg X) (env : Env X) (main : Bool) (ncb fuel : ℕ) {m : ℕ} (hm : env.maxEvals = some m) (S : Finset X) (hS : m < S.card) :
    ∃ p ∈ S, ∀ g, A.exec (env.hiding p g) main ncb fuel = A.exec env main ncb fuel := by
  classical
  have h1 : (A.exec env main ncb fuel).2.calls.length ≤ m := by
    rw [exec_eq]
    exact (C01_budget env (A.body ncb fuel)).2 m hm
  have h2 : (((A.exec env main ncb fuel).2.calls.map Prod.fst).toFinset).card < S.card :=
    lt_of_le_of_lt (List.toFinset_card_le _) (by rw [List.length_map]; omega)
  obtain ⟨p, hp, hn⟩ := Finset.exists_mem_notMem_of_card_lt_card h2
  exact ⟨p, hp, C100_unseen A env main ncb fuel fun c hc he => hn (List.mem_toFinset.2 (List.mem_map.2 ⟨c, hc, he⟩))⟩

/-- A search space that is not a single point has infinitely many points. -/
theorem Box.infinite {D : ℕ} (B : Box D) {i : Fin D} (hi : B.lo i < B.hi i) : {x | B.Mem x}.Infinite := by
  have key : ∃ a b : ℚ, a < b ∧ B.lo i ≤ .fin a ∧ .fin b ≤ B.hi i := by
    rcases hl : B.lo i with _ | _ | a | _ <;> rcases hh : B.hi i with _ | _ | b | _ <;> rw [hl, hh] at hi
    all_goals try (simp at hi; done)
    · exact ⟨b - 1, b, by linarith, by simp, by simp⟩
    · exact ⟨0, 1, by norm_num, by simp, by simp⟩
    · exact ⟨a, b, (Fl.fin_lt_fin a b).1 hi, by simp, by simp⟩
    · exact ⟨a, a + 1, by linarith, by simp, by simp⟩
  obtain ⟨a, b, hab, ha, hb⟩ := key
  have hinj : Function.Injective fun q : Set.Ioo a b => Function.update B.lo i (.fin q.1) := fun q r h => by
    have := congrFun h i
    simp only [Function.update_self] at this
    exact Subtype.ext (Fl.fin.inj this)
  have : (Set.Ioo a b).Infinite := Set.Ioo_infinite hab
  have := this.to_subtype
  refine Set.infinite_of_injective_forall_mem hinj fun q j => ?_
  rcases eq_or_ne j i with rfl | hj
  · rw [Function.update_self]
    exact ⟨Fl.le_trans ha ((Fl.fin_le_fin _ _).2 q.2.1.le), Fl.le_trans ((Fl.fin_le_fin _ _).2 q.2.2.le) hb⟩
  · rw [Function.update_of_ne hj]
    exact ⟨Fl.le_refl (Fl.ne_nan_of_le_left (B.le j)), B.le j⟩

/-- **C100.** However long a run is, there is a feasible point at which the objective function may return anything without any change of the run: no result
is known to be optimal. -/
theorem C100_no_guarantee {D : ℕ} (A : Alg (Vec D)) (env : Env (Vec D)) (main : Bool) (ncb fuel : ℕ) (B : Box D) {i : Fin D} (hi : B.lo i < B.hi i) :
    ∃ p, B.Mem p ∧ ∀ g, A.exec (env.hiding p g) main ncb fuel = A.exec env main ncb fuel := by
  classical
  obtain ⟨p, hp, hn⟩ := (B.infinite hi).exists_notMem_finset ((A.exec env main ncb fuel).2.calls.map Prod.fst).toFinset
  exact ⟨p, hp, C100_unseen A env main ncb fuel fun c hc he => hn (List.mem_toFinset.2 (List.mem_map.2 ⟨c, hc, he⟩))⟩

/-- Cuckoo search with five evaluations: one of six points may hide any value. -/
example : letI := Ex.arith; ∃ p ∈ (Finset.range 6).image (fun k : ℕ => (fun _ => .fin (k / 5) : Vec 1)), ∀ g,
    (CS.alg (Ex.box 1) 3 (.fin (1 / 4))).exec ((Ex.env Ex.sphere .minimization (some 5)).hiding p g) true 0 9 =
      (CS.alg (Ex.box 1) 3 (.fin (1 / 4))).exec (Ex.env Ex.sphere .minimization (some 5)) true 0 9 :=
  letI := Ex.arith
  C100_budget _ _ true 0 9 (m := 5) rfl _ (by
    rw [Finset.card_image_of_injective]
    · decide
    · intro a b h
      have := Fl.fin.inj (congrFun h 0)
      have h5 : ((a : ℚ) / 5) * 5 = (b / 5) * 5 := by rw [this]
      simpa using h5)

/-- The runs are not empty: five evaluations are made. -/
example : letI := Ex.arith; ((CS.alg (Ex.box 1) 3 (.fin (1 / 4))).exec (Ex.env Ex.sphere .minimization (some 5)) true 0 9).2.calls.length = 5 := by decide +kernel

/-- The first three calls are the same with an objective function that raises from then on; the fourth one is made, too. -/
example : letI := Ex.arith
    ((CS.alg (Ex.box 1) 3 (.fin (1 / 4))).exec ((Ex.env Ex.sphere .minimization (some 5)).withObj fun k x => if k < 3 then Ex.sphere k x else .error (.user 0)) true 0 9).2.calls.take 3 =
        ((CS.alg (Ex.box 1) 3 (.fin (1 / 4))).exec (Ex.env Ex.sphere .minimization (some 5)) true 0 9).2.calls.take 3 ∧
      ((CS.alg (Ex.box 1) 3 (.fin (1 / 4))).exec ((Ex.env Ex.sphere .minimization (some 5)).withObj fun k x => if k < 3 then Ex.sphere k x else .error (.user 0)) true 0 9).2.calls.length = 4 :=
  letI := Ex.arith
  ⟨C100_causal _ _ true 0 9 3 _ fun _ _ hk _ => if_pos hk, by decide +kernel⟩

/-- A point of the box hides a value, for a run of any length. -/
example (fuel : ℕ) : letI := Ex.arith; ∃ p, (Ex.box 1).Mem p ∧ ∀ g,
    (CS.alg (Ex.box 1) 3 (.fin (1 / 4))).exec ((Ex.env Ex.sphere).hiding p g) true 0 fuel = (CS.alg (Ex.box 1) 3 (.fin (1 / 4))).exec (Ex.env Ex.sphere) true 0 fuel :=
  letI := Ex.arith
  C100_no_guarantee _ _ true 0 fuel (Ex.box 1) (i := 0) (by decide +kernel)

end NiaPy
