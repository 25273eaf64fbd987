import Verif.Runs
import Verif.Post
import Verif.PopTools

/-!
# Firefly algorithm (`niapy/algorithms/basic/fa.py`)
-/

namespace NiaPy.FA
open NiaPy
variable [Arith] {D N : ℕ}

/-- Parameters (fa.py:62-80). -/
structure Par where
  alpha : Fl
  beta0 : Fl
  gamma : Fl
  theta : Fl

/-- State of a run: fireflies, intensities and `alpha` (fa.py:118-136). -/
structure St (D N : ℕ) where
  pop : Fin N → Vec D
  fit : Fin N → Fl
  alpha : Fl

/-- `init_population` (fa.py:118-136). -/
def init (B : Box D) (N : ℕ) (p : Par) : Prog (Vec D) (St D N) := do
  let (pop, fit) ← defaultNumpyInit B N
  return ⟨pop, fit, p.alpha⟩

/-- The new position of firefly `i` attracted by `j` (fa.py:167-171); no generator is passed to `task.repair`. -/
def move (B : Box D) (p : Par) (alpha : Fl) (xi xj : Vec D) : Prog (Vec D) (Vec D) := do
  let r := euclid xi xj
  let beta := p.beta0 * Arith.fn .exp (-p.gamma * Arith.pow r (Fl.ofNat 2))
  let u ← randVec D
  Prog.repair (fun d => xi d + (beta * (xj d - xi d) + alpha * (u d - lit 1 2) * (B.hi d - B.lo d))) false

/-- Body of the two loops (fa.py:166-173). -/
def step (B : Box D) (p : Par) (alpha : Fl) (i j : Fin N) (a : St D N × Vec D × Fl) : Prog (Vec D) (St D N × Vec D × Fl) :=
  let (s, xb, fxb) := a
  if s.fit j ≤ s.fit i then do
    let y ← move B p alpha (s.pop i) (s.pop j)
    let v ← Prog.eval y
    let s := { s with pop := Function.update s.pop i y, fit := Function.update s.fit i v }
    let b ← Prog.getBest (List.ofFn s.pop) (List.ofFn s.fit) xb fxb
    return (s, b)
  else return a

/-- `run_iteration` (fa.py:138-175). -/
def iter (B : Box D) (p : Par) (s : St D N) (xb : Vec D) (fxb : Fl) : Prog (Vec D) (St D N × Vec D × Fl) := do
  let alpha := s.alpha * p.theta
  let (s, xb, fxb) ← forFin N (fun i => forFin N (step B p alpha i)) (s, xb, fxb)
  return ({ s with alpha := alpha }, xb, fxb)

/-- The firefly algorithm with population size `N` (fa.py). -/
def alg (B : Box D) (N : ℕ) (p : Par) : Alg (Vec D) where
  σ := St D N
  init := init B N p
  pop s := List.ofFn s.pop
  fit s := List.ofFn s.fit
  iter := iter B p

variable {C : Ctx (Vec D)}

theorem move_good (h : C.ent) (B : Box D) (p : Par) (alpha : Fl) (xi xj : Vec D) : Yields C (move B p alpha xi xj) C.G := by
  unfold move
  yields

/-- Invariant inside an iteration. -/
def Ok (C : Ctx (Vec D)) (a : St D N × Vec D × Fl) (g : Ghost (Vec D)) : Prop :=
  (∀ i, C.Fit g.b (a.1.pop i) (a.1.fit i)) ∧ Inc C a.2.1 a.2.2 g

/-- No fitness value is NaN. -/
def NoNanValue : Ctx (Vec D) → Prop := fun C => ∀ x v, C.F x v → v ≠ .nan

theorem metBy_noNanValue {env : Env (Vec D)} (h : NoNaN env) (trk : Prop) (P : Vec D → Prop := fun _ => True) (sh : Prop := True) : MetBy NoNanValue env trk P sh := by
  intro C hF _ _ _ _ x v hv
  obtain ⟨y, -, -, hv⟩ := hF x v hv
  rcases hv with rfl | ⟨k, r, ho, rfl⟩
  · simp
  · rw [ne_eq, OptType.mul_eq_nan]; exact h k y r ho

theorem wp_step (hent : C.ent) (B : Box D) (p : Par) (alpha : Fl) (i j : Fin N) (a : St D N × Vec D × Fl) (g : Ghost (Vec D))
    (h : Ok C a g) : (step B p alpha i j a).wp C (fun a' g' => Ok C a' g' ∧ g.c ≤ g'.c ∧ g'.c ≤ g.c + 1 ∧
      (a.1.fit j ≤ a.1.fit i → g'.c = g.c + 1)) g := by
  obtain ⟨s, xb, fxb⟩ := a
  obtain ⟨h1, h2⟩ := h
  simp only [step]
  rw [wp_ite]
  refine ⟨fun hle => ?_, fun hle => ⟨⟨h1, h2⟩, by simp, by simp, fun h => absurd h hle⟩⟩
  simp only [Prog.wp_bind']
  refine (move_good hent ..).wp fun y hy => ?_
  rw [Prog.wp_eval]
  refine ⟨hy, fun v hv => ?_⟩
  refine wp_getBest_arr (aligned_update (fit_eval h1 v) i (.new hv)) (h2.toFit.eval v) ?_ fun r hr => ?_
  · refine (h2.cov.eval v).mono ?_
    rintro u (rfl | rfl)
    · exact Or.inr ⟨i, by simp⟩
    · exact Or.inl rfl
  · exact ⟨⟨aligned_update (fit_eval h1 v) i (.new hv), hr⟩, by simp [Ghost.eval], by simp [Ghost.eval],
      fun _ => by simp [Ghost.eval]⟩

/-- One iteration: at most `N * N` evaluations, and at least `N` if no fitness value is NaN (a firefly is compared with
itself, too). -/
theorem wp_iter (hent : C.ent) (B : Box D) (p : Par) (s : St D N) (xb : Vec D) (fxb : Fl) (g : Ghost (Vec D))
    (h : Ok C (s, xb, fxb) g) : (iter B p s xb fxb).wp C (fun a g' => Ok C a g' ∧ g'.c ≤ g.c + N * N ∧
      g.c ≤ g'.c ∧ (NoNanValue C → g.c + N ≤ g'.c)) g := by
  simp only [iter, Prog.wp_bind']
  refine Prog.wp_mono ?_ (wp_forFin (fun k a g' => Ok C a g' ∧ g'.c ≤ g.c + k * N ∧ g.c ≤ g'.c ∧
    (NoNanValue C → g.c + k ≤ g'.c)) ⟨h, by simp, by simp, by simp⟩ ?_)
  · rintro ⟨s', xb', fxb'⟩ g' ⟨h1, h2, h3, h4⟩
    exact ⟨h1, h2, h3, h4⟩
  · intro i a g1 ⟨h1, h2, h3, h4⟩
    refine Prog.wp_mono ?_ (wp_forFin (fun k a g' => Ok C a g' ∧ g'.c ≤ g1.c + k ∧ g1.c ≤ g'.c ∧
      (NoNanValue C → i < k → g1.c + 1 ≤ g'.c)) ⟨h1, by simp, by simp, by simp⟩ ?_)
    · rintro a' g2 ⟨e1, e2, e3, e4⟩
      refine ⟨e1, by rw [Nat.add_mul]; omega, by omega, fun hn => ?_⟩
      have := h4 hn
      have := e4 hn i.2
      omega
    · intro j a' g2 ⟨e1, e2, e3, e4⟩
      refine Prog.wp_mono ?_ (wp_step hent B p _ i j a' g2 e1)
      rintro a3 g3 ⟨f1, f2, f3, f4⟩
      refine ⟨f1, by omega, by omega, fun hn hij => ?_⟩
      by_cases hlt : i.1 < j.1
      · have := e4 hn hlt; omega
      · have hij : i = j := Fin.ext (by omega)
        subst hij
        have := f4 (Fl.le_refl (hn _ _ (e1.1 i).1))
        omega

/-- The obligations of the firefly algorithm: `N` evaluations in the beginning, at most `N * N` per iteration; no
generator is passed to `task.repair`. Without further assumptions an iteration may evaluate nothing. -/
theorem verified (B : Box D) (N : ℕ) (p : Par) : Verified (alg B N p) B.Mem false true ⟨N, 0, some (N * N)⟩ := by
  refine ⟨fun C s b => ∀ i, C.Fit b (s.pop i) (s.fit i), fun C hG hent _ => ⟨fun s b h => forall₂_ofFn h, fun g hg => ?_, ?_⟩⟩
  · simp only [alg, init, Prog.wp_bind']
    exact wp_initArr hG hg fun r g' _ _ h3 h4 h5 => ⟨h3, h4, h5⟩
  · intro s xb fxb g hI hF hc
    refine Prog.wp_mono ?_ (wp_iter (hent rfl) B p s xb fxb g ⟨hI, hF, hc⟩)
    rintro a g' ⟨⟨h1, h2⟩, h3, h4, _⟩
    exact ⟨h1, h2.fit, h2.eq, by simpa using h4, fun k hk => by cases hk; exact h3⟩

/-- If no fitness value is NaN, every iteration makes at least `N` evaluations. -/
theorem verified_noNaN (B : Box D) (N : ℕ) (p : Par) :
    VerifiedIf NoNanValue (alg B N p) B.Mem false true ⟨N, N, some (N * N)⟩ := by
  refine ⟨fun C s b => ∀ i, C.Fit b (s.pop i) (s.fit i), fun C hH hG hent _ => AlgOK.toW ⟨fun s b h => forall₂_ofFn h, fun g hg => ?_, ?_⟩⟩
  · simp only [alg, init, Prog.wp_bind']
    exact wp_initArr hG hg fun r g' _ _ h3 h4 h5 => ⟨h3, h4, h5⟩
  · intro s xb fxb g hI hF hc
    refine Prog.wp_mono ?_ (wp_iter (hent rfl) B p s xb fxb g ⟨hI, hF, hc⟩)
    rintro a g' ⟨⟨h1, h2⟩, h3, _, h4⟩
    exact ⟨h1, h2.fit, h2.eq, h4 hH, fun k hk => by cases hk; exact h3⟩

/-! ## C92: the randomness strength -/

/-- **C92.** After `k` iterations the randomness strength is `alpha * theta * ... * theta` with `k` factors `theta`. -/
theorem C92_fa (B : Box D) (N : ℕ) (p : Par) (env : Env (Vec D)) (ncb : ℕ) (r : (alg B N p).σ × Vec D × Fl) (hist : List ((alg B N p).σ × Vec D × Fl))
    (w : World (Vec D)) (ht : (alg B N p).Trace env ncb (r :: hist) w) : St.alpha r.1 = (fun a => a * p.theta)^[hist.length] p.alpha := by
  generalize hl : r :: hist = l at ht
  induction ht generalizing r hist with
  | start hs =>
    cases hl
    obtain ⟨w1, h1, -⟩ := start_init hs
    exact (Post.bind' .any fun a _ => .pure' rfl : Post env (init B N p) fun s => s.alpha = p.alpha) _ _ _ h1
  | @round r0 r1 hist0 w w' _ _ hr ih =>
    cases hl
    obtain ⟨w1, w2, h1, -⟩ := round_iter hr
    have : Post env (iter B p r0.1 r0.2.1 r0.2.2) fun r => r.1.alpha = St.alpha r0.1 * p.theta := Post.bind' .any fun a _ => .pure' rfl
    rw [this _ _ _ h1, List.length_cons, Function.iterate_succ_apply', ← ih _ _ rfl]

omit [Arith] in
/-- **C92.** Without rounding that is `alpha * theta ^ k`, which falls if `0 < theta < 1` and `0 < alpha`. -/
theorem C92_fa_exact (fn : Fn → Fl → Fl) (a th : ℚ) (k : ℕ) :
    letI := exactArith fn
    (fun a : Fl => a * .fin th)^[k] (.fin a) = .fin (a * th ^ k) ∧ (0 < a → 0 < th → th < 1 → a * th ^ (k + 1) < a * th ^ k) := by
  refine ⟨?_, fun h0 h1 h2 => mul_lt_mul_of_pos_left (pow_lt_pow_right_of_lt_one₀ h1 h2 k.lt_succ_self) h0⟩
  induction k with
  | zero => simp
  | succ k ih => rw [Function.iterate_succ_apply', ih, Exact.mul_fin, pow_succ, mul_assoc]

example : ∃ hist w, (@alg Ex.arith 2 (Ex.box 2) 3 ⟨.fin 1, .fin 1, .fin (1 / 100), .fin (97 / 100)⟩).Trace Ex.env2 1 hist w ∧ hist.length = 3 :=
  letI := Ex.arith; (verified (Ex.box 2) 3 _).toIf.exists_trace Ex.env2 (metBy_none _ _) (fuel := 5) (by decide +kernel)

end NiaPy.FA
