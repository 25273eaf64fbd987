import Verif.Post

/-!
# Sine cosine algorithm (`niapy/algorithms/basic/sca.py`), with C38
-/

namespace NiaPy.SCA
open NiaPy
variable [Arith] {D N : ℕ}

/-- Parameters (sca.py:64-96). -/
structure Par where
  a : Fl
  rMin : Fl
  rMax : Fl

/-- State of a run. -/
structure St (D N : ℕ) where
  pop : Fin N → Vec D
  fit : Fin N → Fl

/-- `Algorithm.init_population` with the default initialization (algorithm.py:246-264). -/
def init (B : Box D) (N : ℕ) : Prog (Vec D) (St D N) := do
  let (pop, fit) ← defaultNumpyInit B N
  return ⟨pop, fit⟩

/-- `r1` (sca.py:154). -/
def r1 (a : Fl) (iters : ℕ) : Fl := a - Fl.ofNat (iters + 1) * (a / Fl.ofNat (iters + 1))

/-- The new position before it is repaired (sca.py:132). -/
def moved (x xb : Vec D) (r1 r2 r3 r4 : Fl) : Vec D := fun j =>
  x j + r1 * (if r4 < lit 1 2 then Arith.fn .sin r2 else Arith.fn .cos r2) * Fl.abs (r3 * xb j - x j)

/-- `run_iteration` (sca.py:134-161). -/
def iter (p : Par) (s : St D N) (xb : Vec D) (fxb : Fl) : Prog (Vec D) (St D N × Vec D × Fl) := do
  let v ← Prog.look
  let r2 ← Prog.unif 0 (Fl.ofNat 2 * piF)
  let r3 ← Prog.unif p.rMin p.rMax
  let r4 ← Prog.rand
  let pop ← repairRows fun i => moved (s.pop i) xb (r1 p.a v.iters) r2 r3 r4
  let fit ← evalRows pop
  let (xb, fxb) ← Prog.getBest (List.ofFn pop) (List.ofFn fit) xb fxb
  return (⟨pop, fit⟩, xb, fxb)

/-- The sine cosine algorithm with population size `N` (sca.py). -/
def alg (B : Box D) (N : ℕ) (p : Par) : Alg (Vec D) where
  σ := St D N
  init := init B N
  pop s := List.ofFn s.pop
  fit s := List.ofFn s.fit
  iter := iter p

variable {C : Ctx (Vec D)}

/-- The obligations of the sine cosine algorithm: `N` evaluations in the beginning and per iteration. -/
theorem verified (B : Box D) (N : ℕ) (p : Par) : Verified (alg B N p) B.Mem true true (.exact N N) := by
  refine ⟨fun C s b => ∀ i, C.Fit b (s.pop i) (s.fit i), fun C hG hent _ => ⟨fun s b h => forall₂_ofFn h, fun g hg => ?_, ?_⟩⟩
  · simp only [alg, init, Prog.wp_bind']
    exact wp_initArr hG hg fun r g' _ _ h3 h4 h5 => ⟨h3, h4, h5⟩
  · intro s xb fxb g hI hF hc
    have hinc : Inc C xb fxb g := ⟨hF, hc⟩
    simp only [alg, iter, Prog.wp_bind', Prog.wp_look]
    intro v
    refine Yields.unif.quiet.wp fun r2 _ => Yields.unif.quiet.wp fun r3 _ => Yields.rand.quiet.wp fun r4 _ => ?_
    refine (Yields.repairRows (Or.inl rfl)).wp fun pop hpop => ?_
    refine wp_evalRows hpop hinc.cov fun fit g1 _ hb1 hf1 hc1 hn1 => ?_
    exact wp_getBest_arr hf1 (hinc.toFit.mono hb1) hc1 fun b1 hi1 => ⟨hf1, hi1.fit, hi1.eq, Cost.ok_exact hn1⟩

/-! ### C38 -/

/-- All coordinates are ordinary numbers. -/
def Finite (x : Vec D) : Prop := ∀ j, ∃ q, x j = .fin q

omit [Arith] in
theorem fin_of_between {a b : ℚ} {v : Fl} (h : .fin a ≤ v) (h' : v ≤ .fin b) : ∃ q, v = .fin q := by
  cases v with
  | fin q => exact ⟨q, rfl⟩
  | nan => exact absurd h (by simp)
  | pinf => exact absurd h' (by simp)
  | ninf => exact absurd h (by simp)

omit [Arith] in
theorem Finite.of_mem {B : Box D} (hlo : Finite B.lo) (hhi : Finite B.hi) {x : Vec D} (h : B.Mem x) : Finite x := fun j => by
  obtain ⟨a, ha⟩ := hlo j
  obtain ⟨b, hb⟩ := hhi j
  have := h j
  rw [ha, hb] at this
  exact fin_of_between this.1 this.2

omit [Arith] in
/-- Without rounding, `r1` is 0 in every iteration. -/
theorem r1_exact (fn : Fn → Fl → Fl) (a : ℚ) (iters : ℕ) : @r1 (exactArith fn) (.fin a) iters = 0 := by
  letI := exactArith fn
  have hne : ((iters : ℚ) + 1) ≠ 0 := by positivity
  change Fl.addX (.fin a) (-(Fl.mulX (.fin ((iters + 1 : ℕ) : ℚ)) (if ((iters + 1 : ℕ) : ℚ) = 0 then Fl.infOf a else .fin (a / ((iters + 1 : ℕ) : ℚ))))) = _
  rw [if_neg (by push_cast; exact hne)]
  change Fl.fin (a + -(((iters + 1 : ℕ) : ℚ) * (a / ((iters + 1 : ℕ) : ℚ)))) = Fl.fin 0
  congr 1
  push_cast
  field_simp
  ring

omit [Arith] in
/-- Without rounding, no position changes before it is repaired. -/
theorem moved_exact {fn : Fn → Fl → Fl} (hs : ∀ q, ∃ q', fn .sin (.fin q) = .fin q') (hc : ∀ q, ∃ q', fn .cos (.fin q) = .fin q')
    {x xb : Vec D} (hx : Finite x) (hxb : Finite xb) (a : ℚ) (iters : ℕ) (r2 r3 : ℚ) (r4 : Fl) :
    @moved (exactArith fn) D x xb (@r1 (exactArith fn) (.fin a) iters) (.fin r2) (.fin r3) r4 = x := by
  funext j
  obtain ⟨u, hu⟩ := hx j
  obtain ⟨v, hv⟩ := hxb j
  have key : ∃ q, (if r4 < lit 1 2 then fn .sin (.fin r2) else fn .cos (.fin r2)) = .fin q := by
    split
    · exact hs _
    · exact hc _
  obtain ⟨q, hq⟩ := key
  rw [r1_exact]
  change Fl.addX (x j) (Fl.mulX (Fl.mulX 0 (if r4 < lit 1 2 then fn .sin (.fin r2) else fn .cos (.fin r2)))
    (Fl.abs (Fl.addX (Fl.mulX (.fin r3) (xb j)) (-(x j))))) = x j
  rw [hq, hu, hv]
  change Fl.fin (u + 0 * q * |r3 * v + -u|) = Fl.fin u
  congr 1
  ring

/-- One iteration does not change the population, as long as positions within the bounds are not changed by the repair. -/
theorem iter_still {fn : Fn → Fl → Fl} (hs : ∀ q, ∃ q', fn .sin (.fin q) = .fin q') (hc : ∀ q, ∃ q', fn .cos (.fin q) = .fin q')
    {B : Box D} (hlo : Finite B.lo) (hhi : Finite B.hi) {env : Env (Vec D)} (hrep : ∀ rng k x, B.Mem x → env.repairFn rng k x = x)
    (a rMin rMax : ℚ) (hr : rMin ≤ rMax) {s : St D N} {xb : Vec D} {fxb : Fl} (hp : ∀ i, B.Mem (s.pop i)) (hb : B.Mem xb) :
    Post env (@iter (exactArith fn) D N ⟨.fin a, .fin rMin, .fin rMax⟩ s xb fxb) fun r => r.1.pop = s.pop ∧ B.Mem r.2.1 := by
  letI := exactArith fn
  have two : ∃ q : ℚ, 0 ≤ q ∧ Fl.ofNat 2 * piF = .fin q := ⟨2 * (3141592653589793 / 1000000000000000), by norm_num, rfl⟩
  obtain ⟨t, ht, he⟩ := two
  unfold iter
  refine Post.bind' Post.any fun v _ => ?_
  refine Post.bind' (Post.yields Yields.unif) fun r2 h2 => ?_
  refine Post.bind' (Post.yields Yields.unif) fun r3 h3 => ?_
  refine Post.bind' Post.any fun r4 _ => ?_
  rw [he] at h2
  obtain ⟨q2, rfl⟩ : ∃ q, r2 = .fin q := fin_of_between (h2 ((Fl.fin_le_fin _ _).2 ht)).1 (h2 ((Fl.fin_le_fin _ _).2 ht)).2
  obtain ⟨q3, rfl⟩ : ∃ q, r3 = .fin q := fin_of_between (h3 ((Fl.fin_le_fin _ _).2 hr)).1 (h3 ((Fl.fin_le_fin _ _).2 hr)).2
  refine Post.bind' (P := fun r => r = s.pop) (Post.mono (Post.tabM (P := fun i y => y = s.pop i) fun i => ?_) fun r hr => funext hr) fun pop hpop => ?_
  · change Post env (Prog.repair (moved (s.pop i) xb (r1 (.fin a) v.iters) (.fin q2) (.fin q3) r4)) _
    rw [moved_exact hs hc (Finite.of_mem hlo hhi (hp i)) (Finite.of_mem hlo hhi hb)]
    exact Post.repair fun rng k => hrep rng k _ (hp i)
  · subst hpop
    refine Post.bind' Post.any fun fit _ => ?_
    refine Post.bind' (P := fun b => B.Mem b.1) (Post.ofExcept fun b hb' => ?_) fun b hb => Post.pure' ⟨rfl, hb⟩
    exact getBest_aligned (F := fun x _ => B.Mem x) (forall₂_ofFn hp) (fun x hx => by cases hx; exact hb) hb'

/-- C38 is false of the code: computed without rounding, the factor `r1 = a - (iters + 1) * (a / (iters + 1))` (sca.py:154) is 0 in
every iteration, so that no execution ever moves a solution: the population at the head of every iteration is the initial one,
whatever the random numbers, the objective and the (finite) parameters and bounds are, provided that the repair function
leaves points within the bounds alone. -/
theorem C38_sca_false {fn : Fn → Fl → Fl} (hs : ∀ q, ∃ q', fn .sin (.fin q) = .fin q') (hc : ∀ q, ∃ q', fn .cos (.fin q) = .fin q')
    (B : Box D) (hlo : ∀ j, ∃ q, B.lo j = .fin q) (hhi : ∀ j, ∃ q, B.hi j = .fin q) (N : ℕ)
    (a rMin rMax : ℚ) (hr : rMin ≤ rMax) (env : Env (Vec D)) (hrep : ∀ rng k x, B.Mem x → env.repairFn rng k x = x)
    (ncb : ℕ) (hist : List (St D N × Vec D × Fl)) (w : World (Vec D))
    (h : (@alg (exactArith fn) D B N ⟨.fin a, .fin rMin, .fin rMax⟩).Trace env ncb hist w) :
    ∀ r ∈ hist, ∀ r' ∈ hist, r.1.pop = r'.1.pop := by
  letI := exactArith fn
  have key := Alg.Trace.post (A := alg B N ⟨.fin a, .fin rMin, .fin rMax⟩) h
    (P := fun r => (∀ i, B.Mem (r.1.pop i)) ∧ B.Mem r.2.1) (R := fun r' r => r'.1.pop = r.1.pop) ?_ ?_
  · have hch := key.2
    clear key h
    have : ∀ l : List (St D N × Vec D × Fl), l.IsChain (fun r' r => r'.1.pop = r.1.pop) → ∀ r ∈ l.head?, ∀ r' ∈ l, r'.1.pop = r.1.pop := by
      intro l hl
      induction hl with
      | nil => simp
      | singleton => simp
      | cons_cons h1 h2 ih =>
        rename_i b l
        intro r hr r' hr'
        cases hr
        rcases List.mem_cons.1 hr' with rfl | hr'
        · rfl
        · exact (ih b rfl r' hr').trans h1.symm
    intro r hr r' hr'
    cases hist with
    | nil => cases hr
    | cons c l => exact (this _ hch c rfl r hr).trans (this _ hch c rfl r' hr').symm
  · rintro s b ⟨w1, w2, h1⟩ h2
    have hm : ∀ i, B.Mem (s.pop i) := by
      refine Prog.wp_any_run (p := init B N) (P := fun s => ∀ i, B.Mem (s.pop i)) (fun g => ?_) h1
      simp only [init, Prog.wp_bind']
      exact Prog.wp_mono (fun r g' h => h.2.1) (wp_defaultNumpyInit (C := Ctx.any) (S := fun _ => True) (fun _ _ => trivial)
        fun hn => hn.trk.elim)
    exact ⟨hm, getBest_aligned (F := fun x _ => B.Mem x) (pop := List.ofFn s.pop) (forall₂_ofFn hm) (fun x hx => by cases hx) h2⟩
  · rintro r ⟨h1, h2⟩
    exact Post.mono (iter_still hs hc hlo hhi hrep a rMin rMax hr h1 h2) fun r' h => ⟨⟨h.1 ▸ h1, h.2⟩, h.1⟩

/-- An execution with three different solutions and two iterations. -/
example : ∃ hist w, Alg.Trace (@alg (exactArith fun _ _ => 0) 1 (Ex.box 1) 3 ⟨.fin 3, .fin 0, .fin 2⟩) Ex.env2 1 hist w ∧ hist.length = 3 :=
  letI := exactArith fun _ _ => 0
  (verified (Ex.box 1) 3 ⟨.fin 3, .fin 0, .fin 2⟩).toIf.exists_trace Ex.env2 (metBy_none _ _) (fuel := 5) (by decide +kernel)
example : ∀ rng k x, (Ex.box 1).Mem x → (Ex.env2 (D := 1)).repairFn rng k x = x := fun rng k x h => by
  funext j
  have h1 : .fin (-2) ≤ x j ∧ x j ≤ .fin 2 := h j
  change Ex.clip1 (x j) = x j
  obtain ⟨q, hq⟩ := fin_of_between h1.1 h1.2
  rw [hq, Fl.fin_le_fin, Fl.fin_le_fin] at h1
  rw [hq]
  simp [Ex.clip1, h1]

end NiaPy.SCA
