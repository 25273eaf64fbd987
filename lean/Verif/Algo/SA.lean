import Verif.Single
import Verif.Runs

/-!
# Simulated annealing (`niapy/algorithms/other/sa.py`)
-/

namespace NiaPy.SA
open NiaPy
variable [Arith] {D : ℕ}

/-- `cool_delta` and `cool_linear` (sa.py:15-42) -/
inductive Cooling where
  | delta
  | linear

/-- Parameters (sa.py:92-113); `epsilon` is never read. -/
structure Par where
  delta : Fl
  t0 : Fl
  dt : Fl
  cooling : Cooling

/-- The next temperature (sa.py:15-42); the division by a maximum number of evaluations of 0 is not modelled (NumPy's value is
used). -/
def cool (p : Par) (v : TaskView) (t : Fl) : Fl :=
  match p.cooling with
  | .delta => t - p.dt
  | .linear => t - p.t0 / limF v.maxEvals

/-- Is a candidate accepted that is worse by `d`, at temperature `t`, if the number `r` was drawn (sa.py:199)? The division is
NumPy's: there is no exception for temperature 0. -/
def accept (t d r : Fl) : Bool := d < Fl.fin 0 ∨ r < Arith.fn .exp (d / t)

/-- `run_iteration` (sa.py:175-204). -/
def iter (p : Par) (s : One D Fl) (xb : Vec D) (fxb : Fl) : Prog (Vec D) (One D Fl × Vec D × Fl) := do
  let u ← randVec D
  let c ← Prog.repair fun j => s.x j - p.delta / Fl.ofNat 2 + u j * p.delta
  let v ← Prog.eval c
  let r ← Prog.rand
  let w ← Prog.look
  let t := cool p w s.ext
  let s' : One D Fl := if accept s.ext (v - s.f) r then ⟨c, v, t⟩ else ⟨s.x, s.f, t⟩
  return (s', getBest1 s'.x s'.f xb fxb)

/-- Simulated annealing (sa.py); the initial solution is evaluated as it was drawn (sa.py:171-172). -/
def alg (B : Box D) (p : Par) : Alg (Vec D) where
  σ := One D Fl
  init := initOne B p.t0
  pop s := [s.x]
  fit s := [s.f]
  iter := iter p

variable {C : Ctx (Vec D)}

/-- The obligations of simulated annealing: one evaluation in the beginning, one per iteration. -/
theorem verified (B : Box D) (hsub : SubNeg) (p : Par) : Verified (alg B p) (Sampled B) true true (.exact 1 1) := by
  refine ⟨fun C s b => C.Fit b s.x s.f, fun C hG hent _ => ⟨fun s b h => .cons h .nil, fun g hg => wp_initOne hG hg, ?_⟩⟩
  intro s xb fxb g hI hF hc
  have hinc : Inc C xb fxb g := ⟨hF, hc⟩
  simp only [alg, iter, Prog.wp_bind']
  refine Yields.randVec.wp fun u _ => Yields.repair.wp fun c hcG => ?_
  rw [Prog.wp_eval]
  refine ⟨hcG, fun v hv => ?_⟩
  refine Yields.rand.wp fun r _ => Yields.look.wp fun w _ => ?_
  simp only [Prog.wp_pure']
  split
  · exact ⟨.new hv, (hinc.leq hv).fit, (hinc.leq hv).eq, Cost.ok_exact rfl⟩
  · rename_i hacc
    have hnl : ¬ v < s.f := fun h => hacc (by simp [accept, hsub _ _ h])
    have h1 : Inc C xb fxb (g.eval v) := hinc.keep fun hn => Fl.le_trans (hinc.le_fit hI hn) (Fl.le_of_not_lt (hn _ _ hv) (hn _ _ hI.1) hnl)
    have h2 : Inc C (getBest1 s.x s.f xb fxb).1 (getBest1 s.x s.f xb fxb).2 (g.eval v) := by
      unfold getBest1
      split
      · exact h1.replace (hI.eval v) fun _ => ‹_›
      · exact h1
    exact ⟨hI.eval v, h2.fit, h2.eq, Cost.ok_exact rfl⟩

/-! ### C37 -/

/-- What is used of the exponential function and of the division. -/
structure ExpLaw : Prop where
  exp : ∀ v, Fl.fin 0 ≤ v → Fl.fin 1 ≤ Arith.fn .exp v
  div : ∀ d t, Fl.fin 0 ≤ d → Fl.fin 0 < t → t ≠ .pinf → Fl.fin 0 ≤ d / t

/-- C37 is false: as long as the temperature is positive, every candidate is accepted, however bad it is, whatever is drawn. -/
theorem C37_accept_false (h : ExpLaw) (t d r : Fl) (ht : Fl.fin 0 < t) (ht' : t ≠ .pinf) (hd : d ≠ .nan) (hr : r < Fl.fin 1) :
    accept t d r = true := by
  unfold accept
  rw [decide_eq_true_iff]
  by_cases hneg : d < Fl.fin 0
  · exact Or.inl hneg
  · exact Or.inr (Fl.lt_of_lt_of_le hr (h.exp _ (h.div d t (Fl.le_of_not_lt hd (by simp) hneg) ht ht')))

/-- C37, the part that holds: a candidate that is better is accepted; one that is worse is accepted only if the number drawn is below
`exp(delta / T)` (missing: the minus sign). -/
theorem C37_accept_partial (hsub : SubNeg) (t f v r : Fl) : (v < f → accept t (v - f) r = true) ∧
    (accept t (v - f) r = true → ¬ v - f < Fl.fin 0 → r < Arith.fn .exp ((v - f) / t)) := by
  unfold accept
  simp only [decide_eq_true_iff]
  exact ⟨fun h => Or.inl (hsub _ _ h), fun h hn => h.resolve_left hn⟩

/-- C37 is false: in an iteration at a positive temperature with finite fitness values the current solution is always replaced by
the (repaired) candidate, however bad it is. -/
theorem C37_moves_false (h : ExpLaw) (p : Par) (env : Env (Vec D)) (s : One D Fl) (xb : Vec D) (fxb : Fl) (ht : Fl.fin 0 < s.ext)
    (ht' : s.ext ≠ .pinf) (hfin : ∀ x v, Possible env x v → v - s.f ≠ .nan) :
    Post env (iter p s xb fxb) fun r => ∃ rng k, ∃ u : Vec D, r.1.x = env.repairFn rng k (fun j => s.x j - p.delta / Fl.ofNat 2 + u j * p.delta) ∧
      Possible env r.1.x r.1.f := by
  unfold iter
  refine .bind' .any fun u _ => .bind' (Post.repair (P := fun c => ∃ rng k, c = env.repairFn rng k _) fun rng k => ⟨rng, k, rfl⟩)
    fun c ⟨rng, k, hc⟩ => .bind' (Post.eval fun v hv => hv) fun v hv => .bind' (.yields Yields.rand) fun r hr =>
    .bind' .any fun w _ => .pure' ?_
  dsimp only
  rw [if_pos (C37_accept_false h _ _ _ ht ht' (hfin c v hv) hr.2)]
  exact ⟨rng, k, u, hc, hv⟩

/-- An arithmetic without rounding whose exponential function has the usual sign and monotonicity. -/
abbrev Ex.arith : Arith := exactArith fun f v =>
  match f, v with
  | .exp, .fin q => .fin (if 0 ≤ q then 1 + q else 1 / (1 - q))
  | .exp, .ninf => .fin 0
  | _, v => v

omit [Arith] in
/-- `ExpLaw` holds in the example. -/
theorem Ex.expLaw : @ExpLaw Ex.arith := by
  letI := Ex.arith
  refine ⟨fun v hv => ?_, fun d t hd ht ht' => ?_⟩
  · cases v with
    | fin q =>
      simp only [Fl.fin_le_fin] at hv
      change Fl.fin 1 ≤ Fl.fin (if 0 ≤ q then 1 + q else 1 / (1 - q))
      rw [if_pos hv, Fl.fin_le_fin]; linarith
    | pinf => exact (by decide +kernel : Fl.fin 1 ≤ Fl.pinf)
    | ninf => simp at hv
    | nan => simp at hv
  · cases t with
    | fin q =>
      simp only [Fl.fin_lt_fin] at ht
      cases d with
      | fin d =>
        simp only [Fl.fin_le_fin] at hd
        change Fl.fin 0 ≤ if q = 0 then Fl.infOf d else Fl.fin (d / q)
        rw [if_neg ht.ne', Fl.fin_le_fin]
        exact div_nonneg hd ht.le
      | pinf =>
        change Fl.fin 0 ≤ if q < 0 then Fl.ninf else Fl.pinf
        rw [if_neg (by linarith)]
        exact (by decide +kernel : Fl.fin 0 ≤ Fl.pinf)
      | ninf => simp at hd
      | nan => simp at hd
    | pinf => exact absurd rfl ht'
    | ninf => simp at ht
    | nan => simp at ht

omit [Arith] in
/-- C37 is false at any temperature: at temperature 1/1000 a candidate that is worse by 1000 is accepted although 0.999 was drawn. -/
theorem C37_example_false : @accept Ex.arith (.fin (1 / 1000)) (.fin 1000) (.fin (999 / 1000)) = true := by decide +kernel

/-! ### C64 -/

/-- The temperature after an iteration. -/
theorem iter_cool (p : Par) (env : Env (Vec D)) (s : One D Fl) (xb : Vec D) (fxb : Fl) :
    Post env (iter p s xb fxb) fun r => ∃ v : TaskView, v.maxEvals = env.maxEvals ∧ r.1.ext = cool p v s.ext := by
  unfold iter
  refine .bind' .any fun u _ => .bind' .any fun c _ => .bind' .any fun v _ => .bind' .any fun r _ => .bind' .look fun w hw => .pure' ?_
  dsimp only
  exact ⟨w, hw.2, by split <;> rfl⟩

omit [Arith] in
/-- C64, the schedule: without rounding, the temperature after `n` iterations is `starting_temperature - n * delta_temperature` with
`cool_delta`, and `starting_temperature * (1 - n / max_evals)` with `cool_linear`. -/
theorem C64_schedule (fn : Fn → Fl → Fl) (B : Box D) (delta : Fl) (t0 dt : ℚ) (c : Cooling) (env : Env (Vec D)) (m : ℕ)
    (hm : env.maxEvals = some m) (hm0 : 0 < m) (ncb : ℕ) (hist : List (One D Fl × Vec D × Fl)) (w : World (Vec D))
    (ht : (@alg (exactArith fn) D B ⟨delta, .fin t0, .fin dt, c⟩).Trace env ncb hist w) (pre rest : List (One D Fl × Vec D × Fl))
    (r : One D Fl × Vec D × Fl) (he : hist = pre ++ r :: rest) :
    r.1.ext = .fin (match c with | .delta => t0 - rest.length * dt | .linear => t0 * (1 - rest.length / m)) := by
  letI := exactArith fn
  refine ht.after (P := fun n (s : One D Fl) => s.ext = .fin (match c with | .delta => t0 - n * dt | .linear => t0 * (1 - n / m))) ?_
    (fun n s xb fxb hs => ?_) he
  · change Post env (initOne B _) _
    unfold initOne
    refine .bind' .any fun x _ => .bind' .any fun v _ => .pure' ?_
    cases c <;> simp
  · change Post env (iter _ s xb fxb) _
    refine (iter_cool _ env s xb fxb).mono fun r hr => ?_
    obtain ⟨v, hv, hr⟩ := hr
    rw [hr, hs]
    have hm' : (m : ℚ) ≠ 0 := by exact_mod_cast hm0.ne'
    cases c with
    | delta =>
      change Fl.fin (t0 - n * dt + -dt) = _
      congr 1; push_cast; ring
    | linear =>
      simp only [cool, hv, hm]
      have hd : Fl.fin t0 / limF (some m) = Fl.fin (t0 / m) := by
        change (if (m : ℚ) = 0 then _ else Fl.fin (t0 / m)) = _
        rw [if_neg hm']
      rw [hd]
      change Fl.fin (t0 * (1 - n / m) + -(t0 / m)) = _
      congr 1; push_cast; field_simp; ring

omit [Arith] in
/-- C64 is false of `cool_delta`, the default: after more than `starting_temperature / delta_temperature` iterations the temperature
is negative. -/
theorem C64_delta_false (fn : Fn → Fl → Fl) (B : Box D) (delta : Fl) (t0 dt : ℚ) (env : Env (Vec D)) (m : ℕ)
    (hm : env.maxEvals = some m) (hm0 : 0 < m) (ncb : ℕ) (hist : List (One D Fl × Vec D × Fl)) (w : World (Vec D))
    (ht : (@alg (exactArith fn) D B ⟨delta, .fin t0, .fin dt, .delta⟩).Trace env ncb hist w) (pre rest : List (One D Fl × Vec D × Fl))
    (r : One D Fl × Vec D × Fl) (he : hist = pre ++ r :: rest) (hn : t0 < rest.length * dt) : r.1.ext < .fin 0 := by
  rw [C64_schedule fn B delta t0 dt .delta env m hm hm0 ncb hist w ht pre rest r he, Fl.fin_lt_fin]
  linarith

omit [Arith] in
/-- C64 (partial): with `cool_linear` and without rounding the temperature never rises and is never negative in a run limited by
`max_evals`. Missing: `cool_delta`, see `C64_delta_false`. -/
theorem C64_linear_partial (fn : Fn → Fl → Fl) (B : Box D) (delta : Fl) (t0 dt : ℚ) (h0 : 0 ≤ t0)
    (env : Env (Vec D)) (m : ℕ) (hm : env.maxEvals = some m) (hm0 : 0 < m) (ncb : ℕ) (hist : List (One D Fl × Vec D × Fl))
    (w : World (Vec D)) (ht : (@alg (exactArith fn) D B ⟨delta, .fin t0, .fin dt, .linear⟩).Trace env ncb hist w) :
    (hist.map fun r => r.1.ext).Pairwise (· ≤ ·) ∧ ∀ r ∈ hist, Fl.fin 0 ≤ r.1.ext := by
  letI := exactArith fn
  have hs := C64_schedule fn B delta t0 dt .linear env m hm hm0 ncb hist w ht
  have hm' : (0 : ℚ) < m := by exact_mod_cast hm0
  constructor
  · rw [List.pairwise_map, List.pairwise_iff_getElem]
    intro i j hi hj hij
    have e : ∀ k (hk : k < hist.length), hist = hist.take k ++ hist[k] :: hist.drop (k + 1) := fun k hk => by
      rw [← List.drop_eq_getElem_cons hk, List.take_append_drop]
    have h1 := hs _ _ _ (e i hi)
    have h2 := hs _ _ _ (e j hj)
    rw [h1, h2, Fl.fin_le_fin, List.length_drop, List.length_drop]
    have hc : ((hist.length - (j + 1) : ℕ) : ℚ) ≤ ((hist.length - (i + 1) : ℕ) : ℚ) := by exact_mod_cast (by omega)
    have := div_le_div_of_nonneg_right hc hm'.le
    exact mul_le_mul_of_nonneg_left (by linarith) h0
  · intro r hr
    obtain ⟨pre, rest, he⟩ := List.append_of_mem hr
    have hb : hist.length ≤ m + 1 := (verified B (subNeg_exact fn) ⟨delta, .fin t0, .fin dt, .linear⟩).toIf.trace_budget (by decide) env (metBy_none _ _) hm ht
    rw [hs pre rest r he, Fl.fin_le_fin]
    have hl : rest.length ≤ m := by rw [he, List.length_append, List.length_cons] at hb; omega
    have : (rest.length : ℚ) / m ≤ 1 := by rw [div_le_one hm']; exact_mod_cast hl
    exact mul_nonneg h0 (by linarith)

/-- An execution with two iterations. -/
example : ∃ hist w, letI := NiaPy.Ex.arith; Alg.Trace (alg (NiaPy.Ex.box 2) ⟨.fin (1 / 2), .fin 2000, .fin (4 / 5), .delta⟩) NiaPy.Ex.env2 2 hist w ∧
    hist.length = 3 :=
  letI := NiaPy.Ex.arith
  (verified (NiaPy.Ex.box 2) (subNeg_exact _) _).toIf.exists_trace
    NiaPy.Ex.env2 (metBy_none _ _) (fuel := 5) (by decide +kernel)

/-- The hypotheses of the theorems on C64 hold of a run of three iterations: 2000 is less than three times 1000. -/
example (c : Cooling) : ∃ env : Env (Vec 2), env.maxEvals = some 10 ∧ ∃ hist w, letI := NiaPy.Ex.arith;
    Alg.Trace (alg (NiaPy.Ex.box 2) ⟨.fin (1 / 2), .fin 2000, .fin 1000, c⟩) env 2 hist w ∧ hist.length = 4 :=
  letI := NiaPy.Ex.arith
  ⟨NiaPy.Ex.env NiaPy.Ex.sphere .minimization (some 10) (some 3) none NiaPy.Ex.draws fun _ _ x i => NiaPy.Ex.clip1 (x i), rfl,
    (verified (NiaPy.Ex.box 2) (subNeg_exact _) _).toIf.exists_trace
      _ (metBy_none _ _) (fuel := 5) (by cases c <;> decide +kernel)⟩

end NiaPy.SA
