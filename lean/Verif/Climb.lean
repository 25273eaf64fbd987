import Verif.NoRaise
import Verif.Congr
import Verif.Elite

/-!
# Hill climbing (C117)

When the inner loop of hill climbing ends, what an iteration returns, and what it forgets.
-/

namespace NiaPy

/-- The evaluation counter never decreases. -/
theorem evals_mono {X α : Type} (env : Env X) (p : Prog X α) (w : World X) : w.st.evals ≤ (p.run env w).2.st.evals := by
  refine run_relation env (fun a b => a.st.evals ≤ b.st.evals) (fun _ => le_rfl) (fun _ _ _ => le_trans) ?_ p w
  intro w o
  rcases stepOp_cases env w o with ⟨hs, -⟩ | ⟨hs, -⟩ | ⟨x, -, hs, -⟩
  · rw [hs]
  · rw [hs]; rfl
  · rw [hs]
    unfold evalTask record
    split
    · exact le_rfl
    · dsimp only
      split
      · simp
      · dsimp only; split <;> simp

namespace HC
variable [Arith] {D : ℕ} {env : Env (Vec D)}

/-- A loop that gives back what it has when it is cut off. Only used to prove that it is not cut off. -/
def climbCut (delta : Fl) (x : Vec D) : ℕ → Vec D × Fl → Prog (Vec D) (Vec D × Fl)
  | 0, b => return b
  | n + 1, b => do
    let y ← neighborhood delta x
    if y.2 < b.2 then climbCut delta x n y else return b

def iterCut (B : Box D) (delta : Fl) (fuel : ℕ) (s : One D Unit) (xb : Vec D) (fxb : Fl) : Prog (Vec D) (One D Unit × Vec D × Fl) := do
  let x ← sample B
  let v ← Prog.eval x
  let y ← climbCut delta s.x fuel (x, v)
  return (⟨y.1, y.2, ()⟩, getBest1 y.1 y.2 xb fxb)

theorem wp_climbCut {C : Ctx (Vec D)} {g : Ghost (Vec D)} {delta : Fl} {x : Vec D} {n : ℕ} {b : Vec D × Fl} {fxb : Fl} (hb : C.Fit g.b b.1 b.2)
    (hc : Cov C (fun u => u = fxb ∨ u = b.2) g) :
    (climbCut delta x n b).wp C (fun r g' => C.Fit g'.b r.1 r.2 ∧ Cov C (fun u => u = fxb ∨ u = r.2) g' ∧ g.c ≤ g'.c) g := by
  induction n generalizing b g with
  | zero => exact ⟨hb, hc, le_rfl⟩
  | succ n ih =>
    simp only [climbCut, neighborhood, Prog.wp_bind']
    refine Yields.normVec.wp fun u _ => Yields.repair.wp fun y hy => ?_
    rw [Prog.wp_eval]
    refine ⟨hy, fun v hv => ?_⟩
    simp only [Prog.wp_pure']
    rw [wp_ite]
    refine ⟨fun hlt => ?_, fun hlt => ⟨hb.eval v, (hc.eval v).weaken fun hn u hu hu' => ?_, by simp [Ghost.eval]⟩⟩
    · refine Prog.wp_mono (fun r g' h => ⟨h.1, h.2.1, by have := h.2.2; simp [Ghost.eval] at this; omega⟩)
        (ih (b := (y, v)) (g := g.eval v) (.new hv) ((hc.eval v).weaken fun hn u hu hu' => ?_))
      rcases hu with rfl | rfl | rfl
      · exact ⟨_, Or.inr rfl, Fl.le_refl hu'⟩
      · exact ⟨_, Or.inl rfl, Fl.le_refl hu'⟩
      · exact ⟨_, Or.inr rfl, Fl.le_of_lt hlt⟩
    · rcases hu with rfl | rfl | rfl
      · exact ⟨_, Or.inr rfl, Fl.le_of_not_lt hu' (hn _ _ hb.1) hlt⟩
      · exact ⟨_, Or.inl rfl, Fl.le_refl hu'⟩
      · exact ⟨_, Or.inr rfl, Fl.le_refl hu'⟩

theorem verifiedCut (B : Box D) (delta : Fl) (fuel : ℕ) :
    Verified ({ alg B delta fuel with iter := iterCut B delta fuel } : Alg (Vec D)) (Sampled B) true true ⟨1, 1, none⟩ := by
  refine ⟨fun C s b => C.Fit b s.x s.f, fun C hG hent ho => ⟨fun s b h => .cons h .nil, fun g hg => wp_initOne hG hg, ?_⟩⟩
  intro s xb fxb g hI hF hc
  have hinc : Inc C xb fxb g := ⟨hF, hc⟩
  simp only [alg, iterCut, Prog.wp_bind']
  refine Yields.sample.wp fun x hx => ?_
  rw [Prog.wp_eval]
  refine ⟨hG x hx, fun v hv => ?_⟩
  refine Prog.wp_mono (fun y g' h => ?_) (Prog.wp_below (wp_climbCut (b := (x, v)) (fxb := fxb) (.new hv) ((hinc.cov.eval v).mono
    fun u hu => hu.symm)))
  obtain ⟨⟨h1, h2, h3⟩, hb⟩ := h
  have := Inc.getBest1 h1 ((hinc.toFit.eval v).mono hb) h2
  exact ⟨h1, this.fit, this.eq, by simp [Ghost.eval] at h3; show g.c + 1 ≤ _; omega, nofun⟩

/-- A neighbour that is better than something was evaluated while the task was not stopped. -/
theorem neighborhood_spends {m : ℕ} (hm : env.maxEvals = some m) {delta c : Fl} {x : Vec D} {w w' : World (Vec D)} {y : Vec D × Fl}
    (h : (neighborhood delta x).run env w = (.ok y, w')) (hlt : y.2 < c) : w.st.evals < m ∧ w.st.evals + 1 ≤ w'.st.evals := by
  simp only [neighborhood, Prog.bind_def, Prog.run_bind] at h
  have h1 := evals_mono env (normVec D (.fin 0) delta) w
  rcases hr : (normVec D (.fin 0) delta : Prog (Vec D) (Vec D)).run env w with ⟨e | u, w1⟩
  · rw [hr] at h; simp at h
  rw [hr] at h h1
  dsimp only at h h1
  have h2 := evals_mono env (Prog.repair fun j => x j + u j) w1
  rcases hr2 : (Prog.repair fun j => x j + u j : Prog (Vec D) (Vec D)).run env w1 with ⟨e | z, w2⟩
  · rw [hr2] at h; simp at h
  rw [hr2] at h h2
  dsimp only at h h2
  rw [Prog.run_eval] at h
  have key : w2.st.evals < m ∧ w2.st.evals + 1 ≤ w'.st.evals := by
    unfold evalTask at h
    by_cases hs : stoppingCondition env.toTaskCfg w2.st = true
    · rw [if_pos hs] at h
      simp only [Prog.pure_def, Prog.run_pure, Prod.mk.injEq, Except.ok.injEq] at h
      rw [← h.1] at hlt
      exact absurd hlt (by simp)
    · have hlm : w2.st.evals < m := by
        by_contra hc
        exact hs (by simp [stoppingCondition, reached, hm, not_lt.1 hc])
      rw [if_neg hs] at h
      refine ⟨hlm, ?_⟩
      dsimp only at h
      split at h <;> rename_i v w3 heq
      · simp only [Prod.mk.injEq] at heq
        simp only [Prog.pure_def, Prog.run_pure, Prod.mk.injEq] at h
        rw [← h.2, ← heq.2]
        dsimp only
        split
        · simp
        · dsimp only; unfold record; split <;> simp
      · simp at h
  omega

/-- With a budget of `m` evaluations the loop is not cut off after `m + 1` rounds. -/
theorem climb_same {m : ℕ} (hm : env.maxEvals = some m) (delta : Fl) (x : Vec D) (n : ℕ) :
    ∀ (b : Vec D × Fl) (w : World (Vec D)), 1 ≤ n → m + 1 ≤ n + w.st.evals →
      (climb delta x n b).run env w = (climbCut delta x n b).run env w := by
  induction n with
  | zero => intro b w h; omega
  | succ n ih =>
    intro b w _ hw
    simp only [climb, climbCut, Prog.bind_def, Prog.run_bind]
    rcases hr : (neighborhood delta x).run env w with ⟨e | y, w'⟩
    · rfl
    · dsimp only
      split
      · rename_i hlt
        obtain ⟨h1, h2⟩ := neighborhood_spends hm hr hlt
        exact ih _ _ (by omega) (by omega)
      · rfl

/-- C117: with a budget of `m` evaluations every run of hill climbing ends: neither its inner loop nor the run goes on for more than
`m + 1` rounds. (The inner loop does not look at the stopping condition, but a stopped task answers infinity.) -/
theorem C117_ends (B : Box D) (delta : Fl) (hE : NoFuelError env) {m : ℕ} (hm : env.maxEvals = some m) {lf : ℕ} (hlf : m < lf) (main : Bool)
    (ncb fuel : ℕ) (hf : m < fuel) : ((alg B delta lf).exec env main ncb fuel).1 ≠ .error .outOfFuel := by
  rw [← Alg.exec_congr (A := alg B delta lf) (iter' := iterCut B delta lf) (Inv := fun _ => True) .any (fun _ _ _ _ => .any) ?_]
  · exact C17_terminates_max_evals (verifiedCut B delta lf).toIf (by decide) env (metBy_none _ _) hE m hm main ncb fuel hf
  · intro s xb fxb _
    refine .bind' .any fun x _ => .bind' .any fun v _ => .bindl fun w => climb_same hm delta s.x lf _ _ (by omega) (by omega)

/-- C117 (and C71): such a run returns a solution. -/
theorem C117_returns (B : Box D) (hE : env.Calm) (hc : env.Polite) {delta : Fl} (hd : ¬ delta < .fin 0) {m : ℕ} (hm : env.maxEvals = some m)
    {lf : ℕ} (hlf : m < lf) (main : Bool) (ncb fuel : ℕ) (hf : m < fuel) :
    ∃ res, ((alg B delta lf).exec env main ncb fuel).1 = .ok ⟨some res, none⟩ :=
  C71_hc hE hc hd lf main ncb fuel (C117_ends B delta (hE.noFuel hc) hm hlf main ncb fuel hf)

/-- C117, what is left of climbing: what an iteration goes on with is either a solution sampled from the whole box or, if better than that one, a neighbour of the
current solution: `x` plus normal noise, repaired. -/
theorem C117_next_partial (B : Box D) (delta : Fl) (lf : ℕ) (s : One D Unit) (xb : Vec D) (fxb : Fl) :
    Post env ((alg B delta lf).iter s xb fxb) fun r => ∃ x0 v0, Sampled B x0 ∧ Possible env x0 v0 ∧
      ((One.x (D := D) r.1 = x0 ∧ One.f (D := D) r.1 = v0) ∨
        One.f (D := D) r.1 < v0 ∧ Possible env (One.x (D := D) r.1) (One.f (D := D) r.1) ∧
        ∃ u : Vec D, env.Repairs (fun j => s.x j + u j) (One.x (D := D) r.1) ∧ ∀ j, ∃ k, u j = env.rng.dist k .normal (.fin 0) delta) := by
  have hn : Post env (neighborhood delta s.x) fun y => Possible env y.1 y.2 ∧
      ∃ u : Vec D, env.Repairs (fun j => s.x j + u j) y.1 ∧ ∀ j, ∃ k, u j = env.rng.dist k .normal (.fin 0) delta := by
    unfold neighborhood
    refine .bind' (.tabM (P := fun _ u => ∃ k, u = env.rng.dist k .normal (.fin 0) delta) fun _ => .dist fun k => ⟨k, rfl⟩) fun u hu => ?_
    refine .bind' (.repair (P := fun y => env.Repairs (fun j => s.x j + u j) y) fun rng k => ⟨rng, k, rfl⟩) fun y hy => ?_
    exact .bind' (.eval fun v hv => hv) fun v hv => .pure' ⟨hv, u, hy, hu⟩
  have key : ∀ (x0 : Vec D) (v0 : Fl) n (b : Vec D × Fl), (b = (x0, v0) ∨ b.2 < v0 ∧ Possible env b.1 b.2 ∧
      ∃ u : Vec D, env.Repairs (fun j => s.x j + u j) b.1 ∧ ∀ j, ∃ k, u j = env.rng.dist k .normal (.fin 0) delta) →
      Post env (climb delta s.x n b) fun y => (y = (x0, v0) ∨ y.2 < v0 ∧ Possible env y.1 y.2 ∧
      ∃ u : Vec D, env.Repairs (fun j => s.x j + u j) y.1 ∧ ∀ j, ∃ k, u j = env.rng.dist k .normal (.fin 0) delta) := by
    intro x0 v0 n
    induction n with
    | zero => intro b _; exact LOA.Post.throw
    | succ n ih =>
      intro b hb
      refine .bind' hn fun y hy => LOA.Post.ite (fun hlt => ih y (.inr ⟨?_, hy⟩)) fun _ => .pure' hb
      rcases hb with rfl | hb
      · exact hlt
      · exact Fl.lt_trans hlt hb.1
  show Post env (iter B delta lf s xb fxb) _
  unfold iter
  refine .bind' (.yields Yields.sample) fun x0 hx0 => .bind' (.eval fun v hv => hv) fun v0 hv0 => ?_
  refine .bind' (key x0 v0 lf _ (.inl rfl)) fun y hy => .pure' ⟨x0, v0, hx0, hv0, ?_⟩
  rcases hy with rfl | hy
  · exact .inl ⟨rfl, rfl⟩
  · exact .inr hy

/-- C117: the fitness of the current solution plays no role. -/
theorem C117_forgets (B : Box D) (delta : Fl) (lf : ℕ) (s s' : One D Unit) (hx : s.x = s'.x) (xb : Vec D) (fxb : Fl) :
    iter B delta lf s xb fxb = iter B delta lf s' xb fxb := by
  unfold iter
  rw [hx]

omit [Arith] in
/-- **Climbing fails** (C117): the new solution can be worse than the current one. -/
theorem C117_climbs_false : Loses (@alg NiaPy.Ex.arith 1 (Ex.box 1) (.fin 1) 30) (Ex.env2 5) :=
  loses (w := { World.init .minimization with rk := 10 }) (by decide +kernel)

omit [Arith] in
/-- A concrete case: the sphere function, a budget of seven evaluations. -/
example : letI := Ex.arith; ∃ res, ((alg (Ex.box 2) (.fin (1 / 2)) 10).exec (Ex.env2 9 (some 7)) true 0 10).1 = .ok ⟨some res, none⟩ :=
  letI := Ex.arith
  C117_returns (Ex.box 2) (Ex.env2_calm _ _) (fun _ _ _ => rfl) (by decide +kernel) rfl (by decide) true 0 10 (by decide)

end HC

/-! ### Without a budget of evaluations -/

namespace HC.Down

/-- The objective `f(x) = x_0` with `max_iters = 1`, and a generator whose normal draws decrease from -1/2 towards -1. -/
def env : Env (Vec 1) := Ex.env (fun _ x => .ok (x 0)) .minimization none (some 1) none
  { rand := fun _ => 1 / 2, norm := fun k => .fin (1 / ((k : ℚ) + 2) - 1) }

/-- The first iteration has not ended and no value was minus infinity. -/
structure Fresh (w : World (Vec 1)) : Prop where
  iters : w.st.iters = 0
  xf : w.st.xf ≠ .ninf

theorem Fresh.go {w : World (Vec 1)} (h : Fresh w) : stoppingCondition env.toTaskCfg w.st = false := by
  obtain ⟨h1, h2⟩ := h
  have : ¬ w.st.xf ≤ .ninf := by
    intro hle
    rcases hx : w.st.xf with _ | _ | _ | _ <;> rw [hx] at hle h2 <;> simp_all
  simp [stoppingCondition, reached, env, Ex.env, TaskCfg.mk', h1, OptType.mul, this]

theorem eval_run {w : World (Vec 1)} (h : Fresh w) {x : Vec 1} {q : ℚ} (hx : x 0 = .fin q) :
    ∃ w', (Prog.eval x).run env w = (.ok (.fin q), w') ∧ Fresh w' ∧ w'.rk = w.rk := by
  have he : evalTask env.toTaskCfg w.st x = (.ok (.fin q), record .minimization { w.st with evals := w.st.evals + 1 } (.fin q), [(x, .ok (.fin q))]) := by
    unfold evalTask
    rw [if_neg (by simp [h.go])]
    have ho : env.toTaskCfg.obj w.st.evals x = .ok (.fin q) := by rw [← hx]; rfl
    simp only [ho]
    rfl
  refine ⟨{ w with st := record .minimization { w.st with evals := w.st.evals + 1 } (.fin q), calls := w.calls ++ [(x, .ok (.fin q))] },
    by rw [Prog.run_eval, he], ⟨?_, ?_⟩, rfl⟩
  · show (record _ _ _).iters = 0
    unfold record
    split <;> exact h.iters
  · show (record _ _ _).xf ≠ _
    unfold record
    split
    · exact nofun
    · exact h.xf

theorem sample_run (w : World (Vec 1)) : ∃ x : Vec 1, (@sample Ex.arith 1 (Ex.box 1)).run env w = (.ok x, { w with rk := w.rk + 1 }) ∧ x 0 = .fin 0 := by
  letI := Ex.arith
  refine ⟨fun j => (Ex.box 1).lo j + (Fin.cons (α := fun _ => Fl) (env.rng.rand w.rk) (fun i => i.elim0) : Vec 1) j * ((Ex.box 1).hi j - (Ex.box 1).lo j), rfl, ?_⟩
  have hr : env.rng.rand w.rk = .fin (1 / 2) := by
    show (if Fl.fin (1 / 2) ≤ Fl.belowOne ∧ (0 : ℚ) ≤ 1 / 2 then Fl.fin (1 / 2) else .fin 0) = _
    rw [if_pos (by decide +kernel)]
  show (Ex.box 1).lo 0 + env.rng.rand w.rk * ((Ex.box 1).hi 0 - (Ex.box 1).lo 0) = _
  rw [hr]
  decide +kernel

theorem neighborhood_run {w : World (Vec 1)} (h : Fresh w) {x : Vec 1} (hx : x 0 = .fin 0) :
    ∃ y w', (@neighborhood Ex.arith 1 (.fin 1) x).run env w = (.ok (y, .fin (1 / ((w.rk : ℚ) + 2) - 1)), w') ∧ Fresh w' ∧ w.rk < w'.rk := by
  letI := Ex.arith
  have hy : x 0 + Fl.fin (1 / ((w.rk : ℚ) + 2) - 1) = .fin (1 / ((w.rk : ℚ) + 2) - 1) := by
    rw [hx]
    show Fl.fin (0 + (1 / ((w.rk : ℚ) + 2) - 1)) = _
    rw [zero_add]
  obtain ⟨w', h1, h2, h3⟩ := eval_run (w := { w with rk := w.rk + 2 }) ⟨h.iters, h.xf⟩
    (x := fun j => x j + (Fin.cons (α := fun _ => Fl) (Fl.fin (1 / ((w.rk : ℚ) + 2) - 1)) (fun i => i.elim0) : Vec 1) j) hy
  refine ⟨fun j => x j + (Fin.cons (α := fun _ => Fl) (Fl.fin (1 / ((w.rk : ℚ) + 2) - 1)) (fun i => i.elim0) : Vec 1) j, w', ?_, h2, by rw [h3]; show w.rk < w.rk + 2; omega⟩
  unfold neighborhood
  simp only [Prog.bind_def, Prog.run_bind]
  have hn : (normVec 1 (.fin 0) (.fin 1) : Prog (Vec 1) (Vec 1)).run env w =
      (.ok (Fin.cons (Fl.fin (1 / ((w.rk : ℚ) + 2) - 1)) fun i => i.elim0), { w with rk := w.rk + 1 }) := rfl
  rw [hn]
  dsimp only
  have hr : ∀ z : Vec 1, (Prog.repair z).run env { w with rk := w.rk + 1 } = (.ok z, { w with rk := w.rk + 2 }) := fun _ => rfl
  rw [hr]
  dsimp only
  rw [h1]
  rfl

/-- Neighbours get better and better. -/
theorem climb_run {x : Vec 1} (hx : x 0 = .fin 0) (n : ℕ) : ∀ (w : World (Vec 1)) (b : Vec 1 × Fl) (q : ℚ), Fresh w → b.2 = .fin q →
    1 / ((w.rk : ℚ) + 2) - 1 < q → ((@climb Ex.arith 1 (.fin 1) x n b).run env w).1 = .error .outOfFuel := by
  induction n with
  | zero => intro w b q _ _ _; rfl
  | succ n ih =>
    intro w b q hw hb hq
    obtain ⟨y, w', h1, h2, h3⟩ := neighborhood_run hw hx
    simp only [climb, Prog.bind_def, Prog.run_bind, h1]
    rw [if_pos (by rw [hb]; simpa using hq)]
    refine ih _ _ _ h2 rfl ?_
    have : ((w.rk : ℚ)) < w'.rk := by exact_mod_cast h3
    have h0 : (0 : ℚ) ≤ w.rk := Nat.cast_nonneg _
    have := one_div_lt_one_div_of_lt (by linarith : (0 : ℚ) < (w.rk : ℚ) + 2) (by linarith : (w.rk : ℚ) + 2 < (w'.rk : ℚ) + 2)
    linarith

/-- **Ending fails** (C117) without a budget: without `max_evals` the first iteration of hill climbing need not end, although `max_iters = 1`: whatever number of
rounds the inner loop is given, it wants more. -/
theorem _root_.NiaPy.HC.C117_ends_false (lf fuel : ℕ) :
    ((@alg Ex.arith 1 (Ex.box 1) (.fin 1) lf).exec env true 0 (fuel + 1)).1 = .error .outOfFuel := by
  letI := Ex.arith
  have hbody : ((alg (Ex.box 1) (.fin 1) lf).execBody env 0 (fuel + 1)).1 = .error .outOfFuel := by
    obtain ⟨x, hx, hx0⟩ := sample_run (World.init .minimization)
    obtain ⟨w1, he, hw1, -⟩ := eval_run (w := { World.init .minimization with rk := (World.init (X := Vec 1) .minimization).rk + 1 }) ⟨rfl, nofun⟩ hx0
    obtain ⟨x', hx', hx0'⟩ := sample_run w1
    obtain ⟨w2, he', hw2, -⟩ := eval_run (w := { w1 with rk := w1.rk + 1 }) ⟨hw1.iters, hw1.xf⟩ hx0'
    have hc := climb_run hx0 lf w2 (x', .fin 0) 0 hw2 rfl (by
      have h0 : (0 : ℚ) ≤ w2.rk := Nat.cast_nonneg _
      have := one_div_lt_one_div_of_lt (by norm_num : (0 : ℚ) < 1) (by linarith : 1 < (w2.rk : ℚ) + 2)
      linarith)
    have hi : (initOne (Ex.box 1) ()).run env (World.init .minimization) = (.ok ⟨x, .fin 0, ()⟩, w1) := by
      simp only [initOne, Prog.bind_def, Prog.run_bind, hx, he]
      rfl
    have hit : ∀ xb fxb, ((iter (Ex.box 1) (.fin 1) lf ⟨x, .fin 0, ()⟩ xb fxb).run env w1).1 = .error .outOfFuel := by
      intro xb fxb
      simp only [iter, Prog.bind_def, Prog.run_bind, hx', he']
      rcases hcr : (climb (.fin 1) x lf (x', .fin 0)).run env w2 with ⟨e | y, w3⟩ <;> rw [hcr] at hc
      · cases hc; rfl
      · cases hc
    have hloop : ∀ xb fxb, (((alg (Ex.box 1) (.fin 1) lf).loop 0 (fuel + 1) (⟨x, .fin 0, ()⟩ : One 1 Unit) xb fxb).run env w1).1 = .error .outOfFuel := by
      intro xb fxb
      simp only [Alg.loop, Prog.bind_def, Prog.run_bind, Prog.run_look, hw1.go, fireAll, List.range_zero, forList, Prog.run_pure, Bool.false_eq_true, if_false]
      have h := hit xb fxb
      rcases hr : (iter (Ex.box 1) (.fin 1) lf ⟨x, .fin 0, ()⟩ xb fxb).run env w1 with ⟨e | r, w3⟩ <;> rw [hr] at h
      · cases h
        have hr' : ((alg (Ex.box 1) (.fin 1) lf).iter (⟨x, .fin 0, ()⟩ : One 1 Unit) xb fxb).run env w1 = (.error .outOfFuel, w3) := hr
        rw [hr']
      · cases h
    have hi' : (alg (Ex.box 1) (.fin 1) lf).init.run env (World.init env.opt) =
        ((.ok (⟨x, .fin 0, ()⟩ : One 1 Unit), w1) : Except PyErr (alg (Ex.box 1) (.fin 1) lf).σ × World (Vec 1)) := hi
    simp only [Alg.execBody, Alg.body, fireAll, List.range_zero, forList, Prog.bind_def, Prog.run_bind, Prog.run_pure]
    rw [hi']
    have hg : getBest ((alg (Ex.box 1) (.fin 1) lf).pop (⟨x, .fin 0, ()⟩ : One 1 Unit)) ((alg (Ex.box 1) (.fin 1) lf).fit (⟨x, .fin 0, ()⟩ : One 1 Unit))
      none .pinf = .ok (x, .fin 0) := rfl
    dsimp only
    rw [hg]
    simp only [Prog.ofExcept, Prog.run_pure]
    have h := hloop x (.fin 0)
    rcases hr : ((alg (Ex.box 1) (.fin 1) lf).loop 0 (fuel + 1) (⟨x, .fin 0, ()⟩ : One 1 Unit) x (.fin 0)).run env w1 with ⟨e | r, w3⟩ <;> rw [hr] at h
    · cases h; rfl
    · cases h
  rw [exec_eq]
  simp [hbody]

/-- With a budget of evaluations the same run does end. -/
example (m : ℕ) : ((@alg Ex.arith 1 (Ex.box 1) (.fin 1) (m + 1)).exec { env with maxEvals := some m } true 0 (m + 1)).1 ≠ .error .outOfFuel :=
  letI := Ex.arith
  C117_ends (Ex.box 1) (.fin 1) ⟨(fun _ _ h => by cases h), (fun _ _ _ h => by cases h)⟩ rfl (by omega) true 0 _ (by omega)

end HC.Down
end NiaPy
