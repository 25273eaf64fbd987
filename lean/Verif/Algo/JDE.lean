import Verif.Algo.DE

/-!
# Self-adaptive differential evolution (`niapy/algorithms/modified/jde.py`)

Individuals are evaluated with `e.evaluate(task, rng=self.random)`: a method is passed where a generator is expected. The
repair functions that ignore their generator work all the same, so the call is modelled as a repair that does not use the
generator of the algorithm. (With `rand` it raises a `TypeError`, which is not modelled.)
-/

namespace NiaPy.JDE
open NiaPy DE
variable [Arith] {D : ℕ}

/-- The attributes `differential_weight` and `crossover_probability` of `SolutionJDE` (jde.py:13-45). -/
structure SA where
  f : Fl
  cr : Fl

/-- The values an individual gets when none are given (jde.py:29): `differential_weight=2`, `crossover_probability=0.5`. -/
def SA.default : SA := ⟨Fl.ofNat 2, lit 1 2⟩

/-- Parameters (jde.py:88-110). -/
structure Par where
  fLo : Fl
  fUp : Fl
  tao1 : Fl
  tao2 : Fl

/-- the first line of `adaptive_gen` (jde.py:157) -/
def newF (p : Par) (old : Fl) : Prog (Vec D) Fl := do
  let c ← Prog.rand
  if c < p.tao1 then do
    let r ← Prog.rand
    return p.fLo + r * (p.fUp - p.fLo)
  else return old

/-- the second line of `adaptive_gen` (jde.py:158) -/
def newCR (p : Par) (old : Fl) : Prog (Vec D) Fl := do
  let c ← Prog.rand
  if c < p.tao2 then Prog.rand else return old

/-- `adaptive_gen` (jde.py:147-159), without the coordinates, which stay the same. -/
def adapt (p : Par) (e : SA) : Prog (Vec D) SA := do
  let f ← newF p e.f
  let cr ← newCR p e.cr
  return ⟨f, cr⟩

/-- The new coordinates (jde.py:174-175). One individual after the other is moved, within the same array: the strategy sees
the individuals moved before. -/
def move (strat : Strategy D) (l : List (Ind D SA)) (ps : Fin l.length → SA) (xb : Vec D) : Prog (Vec D) (Fin l.length → Vec D) :=
  forFin l.length (fun i xs => do
    let x ← strat xs i (ps i).f (ps i).cr xb
    return Function.update xs i x) (pts l)

/-- `evolve` (jde.py:161-178). -/
def evolve (strat : Strategy D) (p : Par) : Evolve D SA := fun l xb => do
  let ps ← tabM l.length fun i => adapt p (l.get i).ext
  let xs ← move strat l ps xb
  tabM l.length fun i => do
    let x ← Prog.repair (xs i) false
    let v ← Prog.eval x
    return ⟨x, v, ps i⟩

/-- `SelfAdaptiveDifferentialEvolution` (jde.py:48-178). -/
def alg (opt : OptType) (B : Box D) (N : ℕ) (strat : Strategy D) (p : Par) : Alg (Vec D) :=
  mk opt B N SA.default (iter (evolve strat p) select pure)

/-- `MultiStrategySelfAdaptiveDifferentialEvolution` (jde.py:181-259): `evolve` is that of the differential evolution with several
strategies, with the fixed parameters `f` and `cr` of the algorithm; new individuals get the values of `SA.default`. -/
def algMulti (opt : OptType) (B : Box D) (N : ℕ) (strats : List (Strategy D)) (f cr : Fl) : Alg (Vec D) :=
  mk opt B N SA.default (iter (evolveMulti opt SA.default strats f cr) select pure)

/-! ### Proofs -/

variable {C : Ctx (Vec D)} {g : Ghost (Vec D)}

theorem newF_yields (p : Par) (old : Fl) : Yields C (newF p old : Prog (Vec D) Fl) fun v =>
    v = old ∨ ∃ r, Fl.fin 0 ≤ r ∧ r ≤ Fl.belowOne ∧ v = p.fLo + r * (p.fUp - p.fLo) := by
  unfold newF
  refine .bindT Yields.rand.quiet fun c => .ite (fun _ => ?_) fun _ => .pure' (Or.inl rfl)
  exact .bind' Yields.randLe fun r hr => .pure' (Or.inr ⟨r, hr.1, hr.2, rfl⟩)

theorem newCR_yields (p : Par) (old : Fl) : Yields C (newCR p old : Prog (Vec D) Fl) fun v => v = old ∨ (Fl.fin 0 ≤ v ∧ v < Fl.fin 1) := by
  unfold newCR
  refine .bindT Yields.rand.quiet fun c => .ite (fun _ => ?_) fun _ => .pure' (Or.inl rfl)
  exact Yields.rand.mono fun r hr => Or.inr hr

theorem adapt_yields (p : Par) (e : SA) : Yields C (adapt p e : Prog (Vec D) SA) fun a =>
    (a.f = e.f ∨ ∃ r, Fl.fin 0 ≤ r ∧ r ≤ Fl.belowOne ∧ a.f = p.fLo + r * (p.fUp - p.fLo)) ∧
    (a.cr = e.cr ∨ (Fl.fin 0 ≤ a.cr ∧ a.cr < Fl.fin 1)) := by
  unfold adapt
  exact .bind' (newF_yields p e.f) fun f hf => .bind' (newCR_yields p e.cr) fun cr hcr => .pure' ⟨hf, hcr⟩

theorem move_quiet {strat : Strategy D} (hs : QuietStrategy strat) (l : List (Ind D SA)) (ps : Fin l.length → SA) (xb : Vec D) :
    Quiet C (move strat l ps xb) := by
  unfold move
  exact Yields.forFin (fun _ => True) trivial fun i xs _ => .bindT (hs C _ _ _ _ _) fun x => .pure' trivial

theorem evolveOK {strat : Strategy D} (hs : QuietStrategy strat) (p : Par) : EvolveOK (evolve strat p) 1 false := by
  intro C hent g S l xb h0
  simp only [evolve, Prog.wp_bind']
  refine (Yields.tabMT fun i => (adapt_yields p _).quiet).wp fun ps _ => (move_quiet hs l ps xb).wp fun xs _ => ?_
  refine Prog.wp_mono (fun r g' h => ⟨h.1, h.2.1, h.2.2.2⟩) (wp_tabM_cov (fun _ a => a.x) (fun _ a => a.f) (fun _ _ => True) 1 h0
    fun i g S hS => ?_)
  simp only [Prog.wp_bind', Prog.wp_repair, Prog.wp_eval]
  exact ⟨Or.inr (hent.resolve_left nofun), fun y hy _ => ⟨hy, fun v hv => ⟨(hS.eval v).mono fun u hu => hu.symm, .new hv, trivial, rfl⟩⟩⟩

theorem verified (opt : OptType) (B : Box D) (N : ℕ) {strat : Strategy D} (hs : QuietStrategy strat) (p : Par) :
    Verified (alg opt B N strat p) (fun _ => False) false true (.exact N N) := by
  refine ⟨fun C (l : List (Ind D SA)) b => PopOK C l b ∧ l.length = N, fun C _ hent _ => ⟨fun s b h => forall₂_map h.1, fun g hg => ?_, ?_⟩⟩
  · exact wp_init hg fun l g' h1 h2 h3 h4 => ⟨⟨h1, h2⟩, h3, h4⟩
  · intro s xb fxb g hI hF hc
    refine Prog.wp_mono (fun r g' h => ?_) (wp_iter (evolveOK hs p) (Or.inr (hent rfl)) (R := fun n m => m = n)
      (fun l => .pure' ⟨fun _ h => h, rfl⟩) hI.1 ⟨hF, hc⟩)
    obtain ⟨h1, h2, h3, h4⟩ := h
    refine ⟨⟨h1, h2.trans hI.2⟩, h3.fit, h3.eq, Cost.ok_exact ?_⟩
    rw [hI.2] at h4; omega

theorem verifiedMulti (opt : OptType) (B : Box D) (N : ℕ) {strats : List (Strategy D)} (hs : ∀ s ∈ strats, QuietStrategy s) (f cr : Fl) :
    Verified (algMulti opt B N strats f cr) (fun _ => False) true true (.exact N (N * strats.length)) := by
  refine ⟨fun C (l : List (Ind D SA)) b => PopOK C l b ∧ l.length = N, fun C _ hent _ => ⟨fun s b h => forall₂_map h.1, fun g hg => ?_, ?_⟩⟩
  · exact wp_init hg fun l g' h1 h2 h3 h4 => ⟨⟨h1, h2⟩, h3, h4⟩
  · intro s xb fxb g hI hF hc
    refine Prog.wp_mono (fun r g' h => ?_) (wp_iter (evolveMultiOK opt SA.default hs f cr) (Or.inl rfl) (R := fun n m => m = n)
      (fun l => .pure' ⟨fun _ h => h, rfl⟩) hI.1 ⟨hF, hc⟩)
    obtain ⟨h1, h2, h3, h4⟩ := h
    refine ⟨⟨h1, h2.trans hI.2⟩, h3.fit, h3.eq, Cost.ok_exact ?_⟩
    rw [hI.2] at h4; omega

/-! ### The parameters of the individuals -/

/-- The initial individuals have the given extra attributes. -/
theorem init_ext {E : Type} (opt : OptType) (B : Box D) (N : ℕ) (e : E) (g : Ghost (Vec D)) :
    (DE.init opt B N e).wp Ctx.any (fun l _ => ∀ i ∈ l, i.ext = e) g := by
  simp only [DE.init, Prog.wp_bind']
  refine Prog.wp_mono (fun r g' h => ?_) (wp_tabM (fun _ _ => True) (fun _ a => a.ext = e) trivial fun i g _ =>
    wp_randInd fun y v _ _ => ⟨trivial, rfl⟩)
  intro i hi
  obtain ⟨j, rfl⟩ := List.mem_ofFn.1 hi
  exact h.2 j

omit [Arith] in
/-- What holds of the extra attributes of old and new individuals holds of those selected. -/
theorem iter_ext {E : Type} {ev : Evolve D E} {P : E → Prop} {l : List (Ind D E)} (hl : ∀ e ∈ l, P e.ext) (xb : Vec D) (fxb : Fl)
    (hev : ∀ g, (ev l xb).wp Ctx.any (fun new _ => ∀ i, P (new i).ext) g) (g : Ghost (Vec D)) :
    (iter ev select pure l xb fxb).wp Ctx.any (fun r _ => ∀ e ∈ r.1, P e.ext) g := by
  simp only [iter, Prog.wp_bind']
  refine Prog.wp_mono (fun new g' h => ?_) (hev g)
  simp only [select, best, Prog.wp_bind', Prog.wp_pure']
  refine Prog.wp_any _ (fun b g => Prog.wp_any _ (fun b' g => ?_) g) _
  intro e he
  obtain ⟨i, rfl⟩ := List.mem_ofFn.1 he
  split
  · exact h i
  · exact hl _ (List.get_mem _ _)

/-- What the parameters of an individual may be: the initial values, or those drawn by `adaptive_gen`. -/
def Adapted (p : Par) (e : SA) : Prop :=
  (e.f = Fl.ofNat 2 ∨ ∃ r, Fl.fin 0 ≤ r ∧ r ≤ Fl.belowOne ∧ e.f = p.fLo + r * (p.fUp - p.fLo)) ∧
  (e.cr = lit 1 2 ∨ (Fl.fin 0 ≤ e.cr ∧ e.cr < Fl.fin 1))

theorem evolve_ext (strat : Strategy D) (p : Par) (l : List (Ind D SA)) (xb : Vec D) (hl : ∀ e ∈ l, Adapted p e.ext) (g : Ghost (Vec D)) :
    (evolve strat p l xb).wp Ctx.any (fun new _ => ∀ i, Adapted p (new i).ext) g := by
  simp only [evolve, Prog.wp_bind']
  refine (Yields.tabM (P := fun _ a => Adapted p a) fun i => (adapt_yields p _).mono fun a ha => ?_).wp fun ps hps => ?_
  · have := hl _ (List.get_mem l i)
    refine ⟨?_, ?_⟩
    · rcases ha.1 with h | h
      · rw [h]; exact this.1
      · exact Or.inr h
    · rcases ha.2 with h | h
      · rw [h]; exact this.2
      · exact Or.inr h
  · refine Prog.wp_any _ (fun xs g => ?_) _
    refine Prog.wp_mono (fun r g' h => h.2) (wp_tabM (fun _ _ => True) (fun _ a => Adapted p a.ext) trivial fun i g _ => ?_)
    simp only [Prog.wp_bind']
    exact Prog.wp_any _ (fun x g => Prog.wp_any _ (fun v g => ⟨trivial, hps i⟩) g) g

/-- The default parameters: `f_lower=0`, `f_upper=1`, `tao1=0.4`, `tao2=0.2` (jde.py:88). -/
def Par.default : Par := ⟨0, .fin 1, lit 2 5, lit 1 5⟩

/-- C36, jDE: throughout a run, the scale factor of each individual is within the interval `[f_lower, f_upper]` or still has the
initial value 2, and its crossover rate is within `[0, 1]`. The hypothesis on the arithmetic says that
`f_lower + r * (f_upper - f_lower)` does not leave the interval by rounding; it holds without rounding (`affineLaw_exact`) and
in double precision (`Float64.affineLaw`). (Missing: the initial value is outside the default interval, `C36_jde_false`.) -/
theorem C36_jde_partial (opt : OptType) (B : Box D) (N : ℕ) (strat : Strategy D) (p : Par)
    (hp : ∀ r, Fl.fin 0 ≤ r → r ≤ Fl.belowOne → p.fLo ≤ p.fLo + r * (p.fUp - p.fLo) ∧ p.fLo + r * (p.fUp - p.fLo) ≤ p.fUp)
    (hhalf : Fl.fin 0 ≤ lit 1 2 ∧ lit 1 2 ≤ Fl.fin 1) (env : Env (Vec D)) (ncb : ℕ)
    (hist : List (List (Ind D SA) × Vec D × Fl)) (w : World (Vec D)) (h : (alg opt B N strat p).Trace env ncb hist w) :
    ∀ r ∈ hist, ∀ e ∈ r.1, (e.ext.f = Fl.ofNat 2 ∨ (p.fLo ≤ e.ext.f ∧ e.ext.f ≤ p.fUp)) ∧ Fl.fin 0 ≤ e.ext.cr ∧ e.ext.cr ≤ Fl.fin 1 := by
  have key := h.states (P := fun l : List (Ind D SA) => ∀ e ∈ l, Adapted p e.ext)
    (fun g => Prog.wp_mono (fun l _ hl e he => by rw [hl e he]; exact ⟨Or.inl rfl, Or.inl rfl⟩) (init_ext opt B N SA.default g))
    (fun r g hr => iter_ext hr r.2.1 r.2.2 (evolve_ext strat p r.1 r.2.1 hr) g)
  intro r hr e he
  obtain ⟨h1, h2⟩ := key r hr e he
  refine ⟨h1.imp_right ?_, ?_⟩
  · rintro ⟨r, hr0, hr1, heq⟩
    rw [heq]; exact hp r hr0 hr1
  · rcases h2 with h2 | h2
    · rw [h2]; exact hhalf
    · exact ⟨h2.1, Fl.le_of_lt h2.2⟩

/-- C36 is false of jDE: with any parameters, every individual of the initial population has the scale factor 2, whatever the
interval `[f_lower, f_upper]`. -/
theorem C36_jde_false (opt : OptType) (B : Box D) (N : ℕ) (strat : Strategy D) (p : Par) (env : Env (Vec D)) (ncb : ℕ)
    (hist : List (List (Ind D SA) × Vec D × Fl)) (w : World (Vec D)) (h : (alg opt B N strat p).Trace env ncb hist w) :
    ∀ r ∈ hist.getLast?, ∀ e ∈ r.1, e.ext.f = Fl.ofNat 2 := by
  refine h.first (P := fun l : List (Ind D SA) => ∀ e ∈ l, e.ext.f = Fl.ofNat 2) fun g => ?_
  exact Prog.wp_mono (fun l _ hl e he => by rw [hl e he]; rfl) (init_ext opt B N SA.default g)

/-- C36, MsjDE: the parameters of the individuals never change; no individual adapts. -/
theorem C36_msjde_false (opt : OptType) (B : Box D) (N : ℕ) (strats : List (Strategy D)) (f cr : Fl) (env : Env (Vec D)) (ncb : ℕ)
    (hist : List (List (Ind D SA) × Vec D × Fl)) (w : World (Vec D)) (h : (algMulti opt B N strats f cr).Trace env ncb hist w) :
    ∀ r ∈ hist, ∀ e ∈ r.1, e.ext = SA.default := by
  refine h.states (P := fun l : List (Ind D SA) => ∀ e ∈ l, e.ext = SA.default) (init_ext opt B N SA.default)
    (fun r g hr => iter_ext (P := (· = SA.default)) hr r.2.1 r.2.2 (fun g => ?_) g)
  refine Prog.wp_mono (fun r g' h => h.2) (wp_tabM (fun _ _ => True) (fun _ a => a.ext = SA.default) trivial fun i g _ => ?_)
  simp only [Prog.wp_bind']
  refine Prog.wp_mono (fun c g' h => ?_) (wp_mapM' (fun _ _ => True) (fun _ a => a.ext = SA.default) trivial fun st hst k g _ => ?_)
  · refine wp_argminRec fun a ha _ => ⟨trivial, ?_⟩
    obtain ⟨i, hi, rfl⟩ := List.getElem_of_mem ha
    exact (List.forall₂_iff_get.1 h.2).2 i (by rw [(List.forall₂_iff_get.1 h.2).1]; exact hi) hi
  · simp only [Prog.wp_bind']
    exact Prog.wp_any _ (fun x g => wp_newInd fun y v _ _ => ⟨trivial, rfl⟩) g

omit [Arith] in
/-- The hypotheses on the arithmetic of `C36_jde_partial` hold without rounding. -/
theorem hyp_exact (fn : Fn → Fl → Fl) : letI := exactArith fn
    (∀ r, Fl.fin 0 ≤ r → r ≤ Fl.belowOne → Par.default.fLo ≤ Par.default.fLo + r * (Par.default.fUp - Par.default.fLo) ∧
      Par.default.fLo + r * (Par.default.fUp - Par.default.fLo) ≤ Par.default.fUp) ∧ Fl.fin 0 ≤ lit 1 2 ∧ lit 1 2 ≤ Fl.fin 1 := by
  letI := exactArith fn
  refine ⟨fun r h0 h1 => ?_, ?_⟩
  · exact affineLaw_exact fn (D := 1) ⟨fun _ => .fin 0, fun _ => .fin 1, fun _ => by simp⟩ (fun _ => ⟨_, rfl⟩) (fun _ => ⟨_, rfl⟩) 0 r h0 h1
  · decide +kernel

/-- An execution of jDE with two iterations. -/
example : ∃ hist w, letI := Ex.arith; Alg.Trace (alg .minimization (Ex.box 1) 4 crossRand1 Par.default) Ex.env2 2 hist w ∧ hist.length = 3 :=
  letI := Ex.arith; (verified .minimization (Ex.box 1) 4 (quiet_strategy _ _) Par.default).toIf.exists_trace Ex.env2 (metBy_none _ _) (fuel := 5)
    (by decide +kernel)

/-- An execution of MsjDE with two iterations. -/
example : ∃ hist w, letI := Ex.arith
    Alg.Trace (algMulti .minimization (Ex.box 1) 4 [crossRand1, crossBest1] (.fin 1) (.fin (1 / 2))) Ex.env2 2 hist w ∧ hist.length = 3 :=
  letI := Ex.arith; (verifiedMulti .minimization (Ex.box 1) 4 (by simp [crossRand1, crossBest1, quiet_strategy]) _ _).toIf.exists_trace Ex.env2
    (metBy_none _ _) (fuel := 5) (by decide +kernel)

end NiaPy.JDE
