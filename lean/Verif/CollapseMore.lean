import Verif.Collapse

/-!
# A collapsed population stays where it is: examples, and algorithms that leave
-/

namespace NiaPy

/-! ### Examples -/

namespace Collapsed
open Ex

/-- A point in the box `[-2, 2]`. -/
def pt : Vec 1 := fun _ => .fin 1

/-- `f(x) = x` on `[-2, 2]`, three iterations; random numbers 1/4, normally distributed ones 1. -/
def env : Env (Vec 1) :=
  Ex.env (fun _ x => .ok (x 0)) .minimization none (some 3) none { rand := fun _ => 1 / 4, unif := fun _ => 1 / 2, norm := fun _ => .fin 1, int := fun k => k, rot := fun k => k }
    fun _ _ x i => Ex.clip1 (x i)

theorem repair : ∀ rng k, env.repairFn rng k pt = pt := fun _ _ => by
  funext i
  show Ex.clip1 (Fl.fin 1) = Fl.fin 1
  decide +kernel

theorem real : ∀ j, (pt j).Real := fun _ => ⟨1, rfl⟩
theorem double : ∀ j, ∃ q, pt j = .fin q ∧ Float64.IsF q ∧ |q| < 2 ^ 1024 := fun _ => ⟨1, rfl, ⟨1, 0, by norm_num, by norm_num, by norm_num⟩, by rw [abs_one]; exact one_lt_pow₀ (by norm_num) (by norm_num)⟩

/-- The number of points other than `pt` evaluated in the rest of the run. -/
def others (A : Alg (Vec 1)) (s : A.σ) : ℕ := (((A.loop 0 4 s pt (.fin 1)).run env (World.init .minimization)).2.calls.filter fun c => decide (c.1 0 ≠ .fin 1)).length

theorem not_stuck {A : Alg (Vec 1)} {s : A.σ} (h : others A s ≠ 0) : ¬ Stuck env pt A s := fun hs => by
  obtain ⟨l, e, hl⟩ := (hs 0 4 (.fin 1) (World.init .minimization)).1
  apply h
  unfold others
  rw [e]
  simp only [World.init, List.nil_append, List.length_eq_zero_iff, List.filter_eq_nil_iff]
  intro c hc
  rw [hl c hc]
  simp [pt]

/-- Four individuals at `pt`, in exact arithmetic and in double precision. -/
example : letI := Ex.arith; Stuck env pt (DE.alg .minimization (Ex.box 1) 4 DE.crossRand1 (.fin (1 / 2)) (.fin (9 / 10))) (List.replicate 4 ⟨pt, .fin 1, ()⟩) :=
  letI := Ex.arith
  DE.C99_de (centre_exact _ real) repair _ _ .rand1 ⟨_, rfl⟩ _ fun e he => by rw [List.eq_of_mem_replicate he]
example : letI := Float64.float64 fun _ x => x; Stuck env pt (DE.alg .minimization (Ex.box 1) 4 DE.crossRand1 (.fin (1 / 2)) (.fin (9 / 10))) (List.replicate 4 ⟨pt, .fin 1, ()⟩) :=
  letI := Float64.float64 fun _ x => x
  DE.C99_de (centre_float64 _ double) repair _ _ .rand1 ⟨_, rfl⟩ _ fun e he => by rw [List.eq_of_mem_replicate he]

/-- The rest of that run does call the objective: four times in each of the three iterations. -/
example : letI := Ex.arith; (((DE.alg .minimization (Ex.box 1) 4 DE.crossRand1 (.fin (1 / 2)) (.fin (9 / 10))).loop 0 4 (List.replicate 4 ⟨pt, .fin 1, ()⟩) pt (.fin 1)).run env
    (World.init .minimization)).2.calls.length = 12 := by decide +kernel

/-- Exact arithmetic in which fractional powers have a value. -/
@[reducible] def arith : Arith := { exactArith with pow := fun _ _ => .fin 1 }

theorem centre : @Centre 1 arith pt :=
  have h : @Centre 1 (exactArith fun _ x => x) pt := centre_exact _ real
  letI : Arith := exactArith fun _ x => x
  @Centre.mk 1 arith pt h.sub h.add h.zero_add h.sub_zero h.mul h.zero_mul h.zero_zero

theorem step_fin : (letI := arith; (lit 1 100 * Fl.fin 1 / Arith.pow (Fl.abs (.fin 1)) (1 / lit 3 2) : Fl)) = .fin (1 / 100) := by decide +kernel

/-- Normally distributed numbers and Lévy steps are finite. -/
theorem steps : @FiniteSteps 1 arith env :=
  letI := arith
  ⟨fun _ _ => ⟨_, step_fin⟩, fun _ => ⟨1, rfl⟩⟩

example : letI := arith; Stuck env pt (CS.alg (Ex.box 1) 3 (.fin (1 / 5))) ⟨fun _ => pt, fun _ => .fin 1⟩ :=
  letI := arith
  CS.C99_cs centre repair steps _ _ _ fun _ => rfl

example : letI := arith; Stuck env pt (FPA.alg (Ex.box 1) 3 (.fin (4 / 5))) ⟨fun _ => pt, fun _ => .fin 1, fun _ => pt⟩ :=
  letI := arith
  FPA.C99_fpa centre repair steps _ _ _ (fun _ => rfl) fun _ => rfl

example : letI := Ex.arith; Stuck env pt (MKE.alg .minimization (Ex.box 1) 4 ⟨.fin 2, .fin (1 / 4), .fin 3, .fin (1 / 2)⟩ true) fun i => ⟨pt, .fin 1, pt, .fin 1, decide (i = 0)⟩ :=
  letI := Ex.arith
  MKE.C99_mke2 (centre_exact _ real) repair _ _ _ (fun r hr => by obtain ⟨q, rfl⟩ := real_of_rand hr; exact ⟨_, rfl⟩) ⟨_, rfl⟩ fun _ => ⟨rfl, rfl⟩

example : letI := Ex.arith; Stuck env pt (JDE.alg .minimization (Ex.box 1) 4 DE.crossRand1 ⟨.fin 0, .fin 1, .fin (2 / 5), .fin (1 / 5)⟩)
    (List.replicate 4 ⟨pt, .fin 1, ⟨.fin (1 / 2), .fin (1 / 2)⟩⟩) :=
  letI := Ex.arith
  JDE.C99_jde (centre_exact _ real) repair _ _ .rand1 (fun r hr => by obtain ⟨q, rfl⟩ := real_of_rand hr; exact ⟨_, rfl⟩)
    fun e he => by rw [List.eq_of_mem_replicate he]; exact ⟨rfl, _, rfl⟩

example : letI := Ex.arith; Stuck env pt (PSO.alg (Ex.box 1) 3 ⟨.fin 2, .fin 2, fun _ => .fin (7 / 10), fun _ => .fin (-1), fun _ => .fin 1, fun v _ _ => v⟩ false true 0)
    ⟨fun _ => pt, fun _ => .fin 1, fun _ => pt, fun _ => .fin 1, fun _ _ => .fin 0⟩ :=
  letI := Ex.arith
  PSO.C99_pso (centre_exact _ real) repair _ _ ⟨fun r hr => by obtain ⟨q, rfl⟩ := real_of_rand hr; exact ⟨_, rfl⟩, fun r hr => by obtain ⟨q, rfl⟩ := real_of_rand hr; exact ⟨_, rfl⟩,
    fun _ => ⟨_, rfl⟩, rfl⟩ true (fun _ => PSO.meanLaw_exact _ (by norm_num) real) (fun _ => rfl) (fun _ => rfl) fun _ => rfl

example : letI := Ex.arith; Stuck env pt (NM.alg (Ex.box 1) 3 ⟨.fin (1 / 10), .fin (3 / 10), .fin (-1 / 5), .fin (-1 / 5)⟩) ⟨fun _ => pt, fun _ => .fin 1⟩ :=
  letI := Ex.arith
  NM.C99_nm (centre_exact _ real) _ _ ⟨⟨_, rfl⟩, ⟨_, rfl⟩, ⟨_, rfl⟩, ⟨_, rfl⟩⟩ (NM.centroid_exact _ (by norm_num) real) fun _ => rfl

example : letI := Ex.arith; Stuck env pt (MFO.alg (Ex.box 1) 3) ⟨fun _ => pt, fun _ => .fin 1⟩ :=
  letI := Ex.arith
  MFO.C99_mfo (centre_exact _ real) repair (fun iters r hr => by
    obtain ⟨q, rfl⟩ := real_of_rand hr
    obtain ⟨a, ha⟩ : (MFO.slope iters env.maxIters).Real := ⟨_, rfl⟩
    rw [ha]
    exact ⟨⟨_, rfl⟩, ⟨_, rfl⟩⟩) _ _ fun _ => rfl

/-- The variants of differential evolution. -/
example : letI := Ex.arith
    Stuck env pt (DE.algMulti .minimization (Ex.box 1) 4 [DE.crossRand1, DE.crossBest1] (.fin (1 / 2)) (.fin (9 / 10))) (List.replicate 4 ⟨pt, .fin 1, ()⟩) ∧
    Stuck env pt (DE.algDyn .minimization (Ex.box 1) 4 DE.crossBest1 (.fin (1 / 2)) (.fin (9 / 10)) 2 1) (List.replicate 4 ⟨pt, .fin 1, ()⟩) ∧
    Stuck env pt (DE.algDynMulti .minimization (Ex.box 1) 4 [DE.crossRand1, DE.crossBest1] (.fin (1 / 2)) (.fin (9 / 10)) 2 1) (List.replicate 4 ⟨pt, .fin 1, ()⟩) ∧
    Stuck env pt (JDE.algMulti .minimization (Ex.box 1) 4 [DE.crossRand1, DE.crossBest1] (.fin (1 / 2)) (.fin (9 / 10))) (List.replicate 4 ⟨pt, .fin 1, .default⟩) := by
  letI := Ex.arith
  have hs : ∀ st ∈ ([DE.crossRand1, DE.crossBest1] : List (DE.Strategy 1)), DE.Standard st :=
    List.forall_mem_cons.2 ⟨.rand1, List.forall_mem_cons.2 ⟨.best1, fun _ h => absurd h List.not_mem_nil⟩⟩
  exact ⟨DE.C99_multi (centre_exact _ real) repair _ _ hs ⟨_, rfl⟩ _ fun e he => by rw [List.eq_of_mem_replicate he],
    DE.C99_dyn (centre_exact _ real) repair _ _ .best1 ⟨_, rfl⟩ _ _ _ fun e he => by rw [List.eq_of_mem_replicate he],
    DE.C99_dyn_multi (centre_exact _ real) repair _ _ hs ⟨_, rfl⟩ _ _ _ fun e he => by rw [List.eq_of_mem_replicate he],
    JDE.C99_jde_multi (centre_exact _ real) repair _ _ hs ⟨_, rfl⟩ _ fun e he => by rw [List.eq_of_mem_replicate he]⟩

/-! Other algorithms leave the point. -/

/-- Grey wolves surround `c * leader`, with a random `c`. -/
theorem C99_gwo_false : ¬ Stuck env pt (@GWO.alg Ex.arith 1 (Ex.box 1) 4) ⟨fun _ => pt, fun _ => .fin 1, ⟨pt, .fin 1, pt, .fin 1, pt, .fin 1⟩⟩ :=
  not_stuck (by decide +kernel)

/-- Fireflies add noise. -/
theorem C99_fa_false : ¬ Stuck env pt (@FA.alg Ex.arith 1 (Ex.box 1) 3 ⟨.fin (1 / 2), .fin 1, .fin 1, .fin 1⟩) ⟨fun _ => pt, fun _ => .fin 1, .fin (1 / 2)⟩ :=
  not_stuck (by decide +kernel)

/-- Bees that have exhausted a source become scouts. -/
theorem C99_abc_false : ¬ Stuck env pt (@ABC.alg Ex.arith 1 .minimization (Ex.box 1) 4 0 20) ⟨fun _ => ⟨pt, .fin 1⟩, fun _ => 1⟩ :=
  not_stuck (by decide +kernel)

/-- Bats search around the best one. -/
theorem C99_ba_false : ¬ Stuck env pt (@BA.alg Ex.arith 1 (Ex.box 1) 3 ⟨.fin 1, .fin 1, .fin 1, .fin 1, .fin 0, .fin 2⟩) ⟨fun _ => pt, fun _ => .fin 1, fun _ _ => .fin 0, .fin 1⟩ :=
  not_stuck (by decide +kernel)

/-- `MutatedCenterParticleSwarmOptimization` leaves it, for NaN: the direction of its mutations is the mean velocity divided by the largest component, 0 / 0. -/
theorem C99_mcpso_false : ¬ Stuck env pt (@PSO.alg Ex.arith 1 (Ex.box 1) 3 ⟨.fin 2, .fin 2, fun _ => .fin (7 / 10), fun _ => .fin (-1), fun _ => .fin 1, fun v _ _ => v⟩ false true 1)
    ⟨fun _ => pt, fun _ => .fin 1, fun _ => pt, fun _ => .fin 1, fun _ _ => .fin 0⟩ :=
  not_stuck (by decide +kernel)

/-- Improvised harmonies are new points. -/
theorem C99_hs_false : ¬ Stuck env pt (@HS.alg Ex.arith 1 (Ex.box 1) 3 ⟨.fin (7 / 10), .fin (35 / 100), .plain (.fin (142 / 100))⟩) ⟨fun _ => pt, fun _ => .fin 1⟩ :=
  not_stuck (by decide +kernel)

/-- Monkey kings of the first version look at `x + fc * r * x`. -/
theorem C99_mke1_false : ¬ Stuck env pt (@MKE.alg Ex.arith 1 .minimization (Ex.box 1) 4 ⟨.fin 2, .fin (1 / 4), .fin 3, .fin (1 / 2)⟩ false)
    (fun i => ⟨pt, .fin 1, pt, .fin 1, decide (i = 0)⟩) :=
  not_stuck (by decide +kernel)

end Collapsed

end NiaPy
