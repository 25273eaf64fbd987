import Verif.Single
import Verif.Runs
import Verif.AlgProps
import Mathlib.Tactic.Ring

/-!
# Random search (`niapy/algorithms/other/rs.py`)
-/

namespace NiaPy.RS
open NiaPy
variable [Arith] {D : ℕ}

/-- State of a run: the current solution and the attribute `candidates`. -/
abbrev St (D : ℕ) := One D (List (Vec D))

/-- `np.all(a == x)` -/
def same (a x : Vec D) : Bool := (List.finRange D).all fun j => Fl.eqB (a j) (x j)

/-- The inner `while True` (rs.py:106-110): draws until the point is new; cut off with `outOfFuel` after `fuel` rounds. -/
def fresh (B : Box D) (l : List (Vec D)) : ℕ → Prog (Vec D) (Vec D)
  | 0 => .throw .outOfFuel
  | n + 1 => do
    let x ← sample B
    if l.any (same · x) then fresh B l n else return x

/-- The number of candidates (rs.py:97-102). -/
def total (v : TaskView) : ℕ :=
  match v.maxIters, v.maxEvals with
  | some n, _ => n
  | none, some n => n
  | none, none => 0

/-- Generating the candidates (rs.py:103-110). -/
def generate (B : Box D) (fuel n : ℕ) : Prog (Vec D) (List (Vec D)) :=
  forFin n (fun _ l => do
    let x ← fresh B l fuel
    return l ++ [x]) []

/-- `init_population` (rs.py:85-113): the *first* candidate is evaluated, the *last* one is returned with its fitness. -/
def init (B : Box D) (fuel : ℕ) : Prog (Vec D) (St D) := do
  let v ← Prog.look
  let l ← generate B fuel (total v)
  match l.head?, l.getLast? with
  | some a, some z => do
    let f ← Prog.eval a
    return ⟨z, f, l⟩
  | _, _ => .throw .indexError

/-- `run_iteration` (rs.py:115-139). -/
def iter (s : St D) (xb : Vec D) (fxb : Fl) : Prog (Vec D) (St D × Vec D × Fl) := do
  let v ← Prog.look
  match s.ext[if v.maxIters.isSome then v.iters else v.evals]? with
  | none => .throw .indexError
  | some x => do
    let f ← Prog.eval x
    return (⟨x, f, s.ext⟩, getBest1 x f xb fxb)

/-- Random search (rs.py). -/
def alg (B : Box D) (fuel : ℕ) : Alg (Vec D) where
  σ := St D
  init := init B fuel
  pop s := [s.x]
  fit s := [s.f]
  iter := iter

variable {C : Ctx (Vec D)} {g : Ghost (Vec D)}

theorem fresh_yields {B : Box D} (haff : AffineLaw B) (ho : C.oof) (l : List (Vec D)) (n : ℕ) : Yields C (fresh B l n) B.Mem := by
  induction n with
  | zero => exact .throw fun _ => ho
  | succ n ih => exact Yields.sample.bind' fun x hx => .ite (fun _ => ih) fun _ => .pure' (hx.mem haff)

theorem generate_yields {B : Box D} (haff : AffineLaw B) (ho : C.oof) (fuel n : ℕ) : Yields C (generate B fuel n) fun l => ∀ x ∈ l, B.Mem x := by
  refine Yields.forFin (fun l => ∀ x ∈ l, B.Mem x) (by simp) fun i l hl => (fresh_yields haff ho l fuel).bind' fun x hx => .pure' ?_
  intro y hy
  rcases List.mem_append.1 hy with h | h
  · exact hl y h
  · cases List.mem_singleton.1 h; exact hx

/-- The obligations of random search that hold: only points within the bounds are evaluated, and the best *value* is kept; one
evaluation in the beginning, one per iteration. -/
theorem verified (B : Box D) (haff : AffineLaw B) (fuel : ℕ) : VerifiedIf Untied (alg B fuel) B.Mem true false (.exact 1 1) := by
  refine ⟨fun C s b => C.Fit b s.x s.f ∧ ∀ x ∈ s.ext, B.Mem x, fun C hU hG hent ho => AlgOK.toW ⟨fun s b h => .cons h.1 .nil, fun g hg => ?_, ?_⟩⟩
  · simp only [alg, init, Prog.wp_bind']
    refine Yields.look.wp fun v _ => (generate_yields haff (ho rfl) fuel _).wp fun l hl => ?_
    split
    · rename_i a z ha hz
      rw [Prog.wp_bind', Prog.wp_eval]
      exact ⟨hG _ (hl a (List.mem_of_mem_head? ha)), fun v hv => ⟨⟨⟨hU _ _ _ hv, (Ctx.Fit.new hv).2⟩, hl⟩, Cov.one hg, rfl⟩⟩
    · exact nofun
  · intro s xb fxb g hI hF hc
    have hinc : Inc C xb fxb g := ⟨hF, hc⟩
    simp only [alg, iter, Prog.wp_bind']
    refine Yields.look.wp fun v _ => ?_
    split
    · exact nofun
    · rename_i x hx
      rw [Prog.wp_bind', Prog.wp_eval]
      exact ⟨hG _ (hI.2 x (List.mem_of_getElem? hx)), fun v hv => ⟨⟨.new hv, hI.2⟩, (hinc.leq hv).fit, (hinc.leq hv).eq, Cost.ok_exact rfl⟩⟩

/-- What holds of a run of random search: all points evaluated are within the bounds, the fitness returned is the best value found,
and the best fitness shown to callbacks never gets worse. (Missing: that the solution returned is the one with that fitness.) -/
theorem C56_rs_partial (B : Box D) (haff : AffineLaw B) (inner : ℕ) (env : Env (Vec D)) (hnn : NoNaN env)
    (hR : ∀ rng k x, B.Mem (env.repairFn rng k x)) (ncb fuel : ℕ) :
    let fin := ((alg B inner).execBody env ncb fuel).2
    (∀ c ∈ fin.calls, B.Mem c.1) ∧
    (fin.events.Pairwise fun a b => ∀ u v, a.2.best = some u → b.2.best = some v → v ≤ u) ∧
    ∀ r, ((alg B inner).execBody env ncb fuel).1 = .ok r → env.opt.mul r.2.2 = fin.st.xf := by
  intro fin
  obtain ⟨Inv, hok⟩ := verified B haff inner
  let F : Vec D → Fl → Prop := fun _ v => ∃ y, FitOK env.opt fin.calls y v
  let C : Ctx (Vec D) := ⟨B.Mem, F, True, True, True, LogOK F True True ncb, True, env.Repairs⟩
  have hNN : C.NN := ⟨trivial, fun x v ⟨y, hf⟩ => fitOK_nn env hnn _ y v hf⟩
  have hw : ((alg B inner).body ncb fuel).wp C _ ⟨env.opt.mul (World.init (X := Vec D) env.opt).st.xf, 0, []⟩ :=
    (hok C.quiet (fun x y v h => h) (fun _ h => h) (fun _ => trivial) (fun _ => trivial)).body (C := C) (ncb := ncb)
      (fun L h => ⟨h.aligned, fun _ => h.dom hNN, fun _ => h.mono hNN, h.order, h.same, h.last⟩) trivial trivial fuel
      (by simp [World.init, TaskSt.init]) rfl
  obtain ⟨g', ht, hq, -⟩ := wp_sound C env (.of hR fun _ _ h => h) (Or.inl trivial) _ _ _ (World.init env.opt) hw (fun x v _ h => ⟨x, h⟩) rfl rfl
  refine ⟨fun c hc => ?_, ?_, fun r hr => ?_⟩
  · rcases ht.good c hc with h | h
    · simp [World.init] at h
    · exact h
  · rcases ht.events with h | h
    · have : fin.events = [] := h
      rw [this]; exact .nil
    · exact LogOK.mono h trivial
  · obtain ⟨_, hf, hc, _⟩ := hq r hr
    have hb : g'.b = env.opt.mul fin.st.xf := ht.best rfl
    rw [hc hNN, hb, OptType.mul_mul]

/-- Two evaluations on the sphere in one dimension. -/
def Ex.env : Env (Vec 1) :=
  NiaPy.Ex.env NiaPy.Ex.sphere .minimization (some 2) none none ⟨fun k => if k = 0 then 1 / 2 else 0, fun _ => 0, fun _ => .fin 0, fun k => k, fun k => k⟩
    fun _ _ x i => NiaPy.Ex.clip1 (x i)

omit [Arith] in
/-- C56 is false: with a budget of two evaluations, random search evaluates the origin (value 0) and the point -2 (value 4), and
returns the point -2 with the fitness 0. -/
theorem C56_rs_false : (match ((@alg NiaPy.Ex.arith 1 (NiaPy.Ex.box 1) 3).exec Ex.env true 0 5) with
    | (.ok ⟨some (x, f), _⟩, w) => decide (x 0 = .fin (-2) ∧ f = .fin 0 ∧ w.calls.map (fun c => (c.1 0, c.2.toOption)) =
        [(.fin 0, some (.fin 0)), (.fin (-2), some (.fin 4))])
    | _ => false) = true := by decide +kernel

theorem fresh_stuck {B : Box D} {l : List (Vec D)} (h : ∀ u : Vec D, (∀ i, Fl.fin 0 ≤ u i ∧ u i < Fl.fin 1) →
    l.any (same · fun j => B.lo j + u j * (B.hi j - B.lo j)) = true) (n : ℕ) : Yields Ctx.any (fresh B l n) fun _ => False := by
  induction n with
  | zero => exact .throw fun _ => trivial
  | succ n ih =>
    refine .bind' (P := fun x => l.any (same · x) = true) (Yields.randVec.bind' fun u hu => .pure' (h u hu)) fun x hx => ?_
    rw [if_pos hx]
    exact ih

omit [Arith] in
theorem point_eq (fn : Fn → Fl → Fl) (q : ℚ) {r : Fl} (h0 : Fl.fin 0 ≤ r) (h1 : r < Fl.fin 1) : letI := exactArith fn
    Fl.fin q + r * (Fl.fin q - Fl.fin q) = Fl.fin q := by
  cases r with
  | fin r =>
    change Fl.fin (q + r * (q + -q)) = Fl.fin q
    congr 1; ring
  | pinf => simp at h1
  | ninf => simp at h0
  | nan => simp at h0

omit [Arith] in
/-- C57 is false: in a box that is a single point (computed without rounding), random search with a budget of more than one
candidate never completes its initialization: however many rounds of the rejection loop are allowed, it does not return. -/
theorem C57_rs_false (q : Fin D → ℚ) (fn : Fn → Fl → Fl) (env : Env (Vec D)) (hb : 2 ≤ (env.maxIters.getD (env.maxEvals.getD 0)))
    (fuel : ℕ) (w : World (Vec D)) (s : St D) :
    ((@init (exactArith fn) D ⟨fun j => .fin (q j), fun j => .fin (q j), fun j => by simp⟩ fuel).run env w).1 ≠ .ok s := by
  letI := exactArith fn
  intro hs
  have hpt : ∀ u : Vec D, (∀ i, Fl.fin 0 ≤ u i ∧ u i < Fl.fin 1) → (fun j => Fl.fin (q j) + u j * (Fl.fin (q j) - Fl.fin (q j))) =
      fun j => Fl.fin (q j) := fun u hu => funext fun j => point_eq fn (q j) (hu j).1 (hu j).2
  generalize hB : (⟨fun j => .fin (q j), fun j => .fin (q j), fun j => by simp⟩ : Box D) = B at hs
  have hsample : Yields Ctx.any (sample B) fun x => x = fun j => Fl.fin (q j) := by
    subst hB; exact Yields.randVec.bind' fun u hu => .pure' (hpt u hu)
  have hfresh : ∀ l n, Yields Ctx.any (fresh B l n) fun x => x = fun j => Fl.fin (q j) := by
    intro l n
    induction n with
    | zero => exact .throw fun _ => trivial
    | succ n ih => exact hsample.bind' fun x hx => .ite (fun _ => ih) fun _ => .pure' hx
  have hstuck : ∀ n, Yields Ctx.any (fresh B [fun j => Fl.fin (q j)] n) fun _ => False := by
    refine fresh_stuck fun u hu => ?_
    subst hB
    rw [hpt u hu]
    simp [same, Fl.eqB]
  have hgen : ∀ n, 2 ≤ n → Yields Ctx.any (generate B fuel n) fun _ => False := fun n hn => by
    constructor
    intro g
    refine Prog.wp_mono (fun l g' h => ?_) (wp_forFin (fun k l g' => g' = g ∧ (k = 0 → l = []) ∧ (k = 1 → l = [fun j => Fl.fin (q j)]) ∧ k < 2)
      ⟨rfl, fun _ => rfl, nofun, by norm_num⟩ fun i l g' h => ?_)
    · exact absurd h.2.2.2 (by omega)
    · obtain ⟨rfl, h0, h1, h2⟩ := h
      rw [Prog.wp_bind']
      by_cases hi : i.1 = 0
      · rw [h0 hi]
        exact (hfresh [] fuel).wp fun x hx => ⟨rfl, by omega, fun _ => by rw [hx]; rfl, by omega⟩
      · rw [h1 (by omega)]
        exact (hstuck fuel).wp fun x hx => hx.elim
  have key : Post env (init B fuel) fun _ => False := by
    unfold init
    refine .bind' Post.look fun v hv => .bind' (.yields (hgen (total v) ?_)) fun l hl => hl.elim
    unfold total
    rw [hv.1, hv.2]
    cases h1 : env.maxIters <;> cases h2 : env.maxEvals <;> simpa [h1, h2] using hb
  exact key w _ s (Prod.ext hs rfl)

end NiaPy.RS
