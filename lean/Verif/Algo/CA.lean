import Verif.Loose
import Verif.Runs
import Verif.RepairProps

/-!
# Camel algorithm (`niapy/algorithms/basic/ca.py`)

A camel is dropped if its previous fitness is less than `death_rate` times its new one (ca.py:331). For positive fitness values
this means that it got much worse; for negative ones also camels that have just found the best solution are dropped.
-/

namespace NiaPy.CA
open NiaPy
variable [Arith] {D N : ℕ}

/-- Parameters (ca.py:192-219). The divisors `supply_init`, `endurance_init` and `max_temperature` are supposed to be nonzero
(Python raises `ZeroDivisionError` otherwise). -/
structure Par where
  burden : Fl
  death : Fl
  visibility : Fl
  supply : Fl
  endurance : Fl
  minT : Fl
  maxT : Fl

/-- `Camel` (ca.py:14-62). The attribute `temperature` is only used while walking. -/
structure Camel (D : ℕ) where
  x : Vec D
  f : Fl
  xPast : Vec D
  fPast : Fl
  supply : Fl
  supplyPast : Fl
  endurance : Fl
  endurancePast : Fl
  steps : ℕ

/-- A new camel (ca.py:43-62); the constructor of `Individual` evaluates it. -/
def born (opt : OptType) (B : Box D) (p : Par) : Prog (Vec D) (Camel D) := do
  let i ← Indiv.random opt B
  return ⟨i.x, i.f, i.x, i.f, p.supply, p.supply, p.endurance, p.endurance, 0⟩

/-- `init_pop` (ca.py:268-286). -/
def init (opt : OptType) (B : Box D) (N : ℕ) (p : Par) : Prog (Vec D) (Fin N → Camel D) := tabM N fun _ => born opt B p

/-- The point the camel walks to (ca.py:109-111). -/
def goal (p : Par) (c : Camel D) (delta endurance supply : Fl) (xb : Vec D) : Vec D := fun j =>
  c.xPast j + delta * (1 - endurance / p.endurance) * Arith.fn .exp (1 - supply / p.supply) * (xb j - c.xPast j)

/-- `next_x` from line 112 on (ca.py:112-115): an infeasible point is not evaluated. -/
def arrive (B : Box D) (c : Camel D) (y : Vec D) : Prog (Vec D) (Camel D) :=
  if isFeasible B y then do
    let f ← Prog.eval y
    return { c with x := y, f := f }
  else return { c with x := c.xPast }

/-- `walk` (ca.py:288-304, 64-115). -/
def walk (B : Box D) (p : Par) (xb : Vec D) (c : Camel D) : Prog (Vec D) (Camel D) := do
  let v ← Prog.look
  let t ← Prog.unif p.minT p.maxT
  let supply := c.supplyPast * (1 - p.burden * Fl.ofNat c.steps / limF v.maxIters)
  let endurance := c.endurancePast * (1 - t / p.maxT) * (1 - Fl.ofNat c.steps / limF v.maxIters)
  let delta ← Prog.unif (-1) 1
  arrive B { c with supply := supply, endurance := endurance } (goal p c delta endurance supply xb)

/-- `oasis` (ca.py:306-318). -/
def oasis (p : Par) (c : Camel D) : Prog (Vec D) (Camel D) := do
  let r ← Prog.rand
  return if 1 - p.visibility < r ∧ c.f < c.fPast then { c with supply := p.supply, endurance := p.endurance } else c

/-- `Camel.next` (ca.py:117-124). -/
def Camel.next (c : Camel D) : Camel D :=
  { c with xPast := c.x, fPast := c.f, endurancePast := c.endurance, supplyPast := c.supply, steps := c.steps + 1 }

/-- `life_cycle` (ca.py:320-334). -/
def lifeCycle (opt : OptType) (B : Box D) (p : Par) (c : Camel D) : Prog (Vec D) (Camel D) :=
  if c.fPast < p.death * c.f then born opt B p else return c.next

/-- `run_iteration` (ca.py:336-361). -/
def iter (opt : OptType) (B : Box D) (p : Par) (s : Fin N → Camel D) (xb : Vec D) (fxb : Fl) :
    Prog (Vec D) ((Fin N → Camel D) × Vec D × Fl) := do
  let s1 ← tabM N fun i => walk B p xb (s i)
  let s2 ← tabM N fun i => oasis p (s1 i)
  let s3 ← tabM N fun i => lifeCycle opt B p (s2 i)
  let b ← Prog.getBest (List.ofFn fun i => (s3 i).x) (List.ofFn fun i => (s3 i).f) xb fxb
  return (s3, b)

/-- The camel algorithm with population size `N` (ca.py). -/
def alg (opt : OptType) (B : Box D) (N : ℕ) (p : Par) : Alg (Vec D) where
  σ := Fin N → Camel D
  init := init opt B N p
  pop s := List.ofFn fun i => (s i).x
  fit s := List.ofFn fun i => (s i).f
  iter := iter opt B p

variable {C : Ctx (Vec D)} {g : Ghost (Vec D)}

/-- A value that is not negative is not below `death_rate` times itself. -/
def DeathLaw (d : Fl) : Prop := ∀ u v, 0 ≤ v → u < d * v → u ≤ v

theorem wp_born {opt : OptType} {B : Box D} {p : Par} {Q : Camel D → Ghost (Vec D) → Prop}
    (h : ∀ c v, c.x = c.xPast → c.f = v → c.fPast = v → C.F c.x v → Q c (g.eval v)) : (born opt B p).wp C Q g := by
  simp only [born, Prog.wp_bind']
  exact wp_indivRandom fun y v _ hv => h _ v rfl rfl rfl hv

/-- The obligations of the camel algorithm: the best solution is kept as long as no fitness is negative. -/
theorem verified (opt : OptType) (B : Box D) (N : ℕ) (p : Par) (H : Ctx (Vec D) → Prop)
    (hH : ∀ C, H C → NoTracking C ∨ ((∀ x v, C.F x v → 0 ≤ v) ∧ DeathLaw p.death)) :
    VerifiedIf H (alg opt B N p) B.Mem true true ⟨N, 0, some (2 * N)⟩ := by
  refine ⟨fun C s b => ∀ i, C.Fit b (s i).x (s i).f ∧ (s i).xPast = (s i).x ∧ (s i).fPast = (s i).f, fun C hC hG _ _ =>
    AlgOK.toW ⟨fun s b h => forall₂_ofFn fun i => (h i).1, fun g hg => ?_, ?_⟩⟩
  · refine Prog.wp_mono (fun s g' h => ?_) (wp_tabM_cov (fun _ c => c.x) (fun _ c => c.f) (fun _ c => c.xPast = c.x ∧ c.fPast = c.f) 1
      (Cov.pinf hg fun _ => False) fun i g S hS => wp_born fun c v h1 h2 h3 h4 => ?_)
    · exact ⟨fun i => ⟨h.2.1 i, h.2.2.1 i⟩, h.1.mono fun _ hu => mem_ofFn_iff.2 (hu.resolve_left id), by simpa using h.2.2.2⟩
    · subst h2
      exact ⟨(hS.eval _).mono fun u hu => hu.symm, .new h4, ⟨h1.symm, h3⟩, rfl⟩
  · intro s xb fxb g hI hF hc
    have hinc : Inc C xb fxb g := ⟨hF, hc⟩
    simp only [alg, iter, Prog.wp_bind']
    refine Prog.wp_mono (fun s1 g1 h1 => ?_) (wp_tabM_covB (fun _ c => c.x) (fun _ c => c.f) (fun i c => c.fPast = (s i).f) 0 1
      hinc.cov fun i g' S hb hS => ?_)
    · obtain ⟨⟨hcov1, hf1, hp1, hc1, hc1'⟩, hb1⟩ := h1
      refine Yields.wp (P := fun s2 => ∀ i, (s2 i).x = (s1 i).x ∧ (s2 i).f = (s1 i).f ∧ (s2 i).fPast = (s1 i).fPast) ?_ fun s2 h2 => ?_
      · refine .tabM (P := fun i (c : Camel D) => c.x = (s1 i).x ∧ c.f = (s1 i).f ∧ c.fPast = (s1 i).fPast) fun i => ?_
        refine .bind' Yields.rand.quiet fun r _ => .pure' ?_
        split <;> exact ⟨rfl, rfl, rfl⟩
      refine Prog.wp_mono (fun s3 g3 h3 => ?_) (wp_tabM_covB (fun _ c => c.x) (fun _ c => c.f)
        (fun i c => (c.xPast = c.x ∧ c.fPast = c.f) ∧ (c.f = (s1 i).f ∨ (s i).f < p.death * (s1 i).f)) 0 1 hcov1
        fun i g' S hb hS => ?_)
      · obtain ⟨⟨hcov3, hf3, hp3, hc3, hc3'⟩, hb3⟩ := h3
        refine wp_getBest_arr hf3 (hinc.toFit.mono (hb3.trans hb1)) (hcov3.weaken fun hn u hu _ => ?_) fun b hi =>
          ⟨fun i => ⟨hf3 i, (hp3 i).1⟩, hi.fit, hi.eq, ?_, fun h he => ?_⟩
        · rcases hu with ((hu | ⟨i, hu⟩) | hu)
          · exact ⟨u, Or.inl hu, by rw [hu]; exact Fl.le_refl (hn _ _ hF)⟩
          · rcases (hp3 i).2 with he | hlt
            · exact ⟨u, Or.inr ⟨i, hu.trans he.symm⟩, by rw [hu]; exact Fl.le_refl (hn _ _ (hf1 i).1)⟩
            · rcases hH C hC with ht | ⟨hpos, hlaw⟩
              · exact (ht hn.trk).elim
              · refine ⟨fxb, Or.inl rfl, hu ▸ Fl.le_trans (hinc.le_fit (hI i).1 hn) (hlaw _ _ (hpos _ _ (hf1 i).1) hlt)⟩
          · exact ⟨u, Or.inr hu, by obtain ⟨i, rfl⟩ := hu; exact Fl.le_refl (hn _ _ (hf3 i).1)⟩
        · simp only [Nat.mul_zero] at hc1 hc3 ⊢; omega
        · cases he; simp only [Nat.mul_one] at hc1' hc3' ⊢; omega
      · unfold lifeCycle
        obtain ⟨e1, e2, e3⟩ := h2 i
        split
        · rename_i hlt
          refine wp_born fun c v h1 h2 h3 h4 => ?_
          subst h2
          rw [e2, e3, hp1] at hlt
          exact ⟨(hS.eval _).mono fun u hu => hu.symm, .new h4, ⟨⟨h1.symm, h3⟩, Or.inr hlt⟩, Nat.le_succ _, le_rfl⟩
        · refine ⟨hS.mono fun _ h => Or.inl h, ?_, ⟨⟨rfl, rfl⟩, Or.inl e2⟩, le_rfl, Nat.le_succ _⟩
          simpa [Camel.next, e1, e2] using (hf1 i).mono hb
    · obtain ⟨hf, hx, hv⟩ := hI i
      simp only [walk, Prog.wp_bind', Prog.wp_look]
      intro v
      refine Yields.unif.quiet.wp fun t _ => Yields.unif.quiet.wp fun delta _ => ?_
      unfold arrive
      split
      · rename_i hfe
        simp only [Prog.wp_bind', Prog.wp_eval]
        exact ⟨hG _ ((C11_is_feasible B _).1 hfe), fun v hv' => ⟨(hS.eval _).mono fun u hu => hu.symm, .new hv', hv, Nat.le_succ _, le_rfl⟩⟩
      · refine ⟨hS.mono fun _ h => Or.inl h, ?_, hv, le_rfl, Nat.le_succ _⟩
        simpa [hx] using hf.mono hb

/-- The obligations for any objective, without the best solution. -/
theorem verified_any (opt : OptType) (B : Box D) (N : ℕ) (p : Par) :
    VerifiedIf NoTracking (alg opt B N p) B.Mem true true ⟨N, 0, some (2 * N)⟩ := verified opt B N p NoTracking fun _ h => Or.inl h

theorem dominates (opt : OptType) (B : Box D) (N : ℕ) (p : Par) : Dominates (alg opt B N p) := by
  intro env s xb fxb
  refine .bind' .any fun s1 _ => .bind' .any fun s2 _ => .bind' .any fun s3 _ => .bind' Post.getBest fun b hb =>
    .pure' ⟨hb.1, fun hx hn f hf => ?_⟩
  obtain ⟨i, rfl⟩ := mem_ofFn_iff.1 hf
  exact hb.2 hx (fun i => hn _ (mem_ofFn_iff.2 ⟨i, rfl⟩)) i

/-! ### C58 -/

/-- No value of the objective has the sign that makes camels die young: none is negative when minimizing, none positive when
maximizing. -/
def NonnegObj (env : Env (Vec D)) : Prop := ∀ k x r, env.obj k x = .ok r → 0 ≤ env.opt.mul r

/-- C58 (partial) for the camel algorithm: it returns the best solution evaluated if no fitness is negative. Missing: objectives
with negative values, see `C58_ca_false`. -/
theorem C58_ca_partial (opt : OptType) (B : Box D) (N : ℕ) (p : Par) (hd : DeathLaw p.death) (env : Env (Vec D)) (hpos : NonnegObj env)
    (main : Bool) (ncb fuel : ℕ) (out : RunOut (Vec D)) (x : Vec D) (f : Fl)
    (hrun : ((alg opt B N p).exec env main ncb fuel).1 = .ok out) (hres : out.result = some (x, f)) :
    f = ((alg opt B N p).exec env main ncb fuel).2.st.xf ∧
      BestOf env.opt (values ((alg opt B N p).exec env main ncb fuel).2.calls) f := by
  refine C26_returned_is_best (verified opt B N p (fun C => ∀ x v, C.F x v → 0 ≤ v) fun _ h => Or.inr ⟨h, hd⟩) env (P := fun _ => True) (sh := True)
    (fun C hC _ _ _ _ x v hv => ?_) (fun k x r hr hn => ?_) main ncb fuel out x f hrun hres
  · rcases ((hC x v hv).sharp trivial).2 with rfl | ⟨k, r, hr, rfl⟩
    · exact (by decide : (0 : Fl) ≤ .pinf)
    · exact hpos k x r hr
  · have := hpos k x r hr
    subst hn
    have hne : ∀ o : OptType, ¬ (0 : Fl) ≤ o.mul .nan := fun o => by cases o <;> decide
    exact hne _ this

omit [Arith] in
/-- The law about `death_rate` holds without rounding, for rates between 0 and 1. -/
theorem deathLaw_exact (fn : Fn → Fl → Fl) (d : ℚ) (h0 : 0 ≤ d) (h1 : d ≤ 1) : @DeathLaw (exactArith fn) (.fin d) := by
  intro u v hv hu
  cases v with
  | nan => exact absurd hv (by decide)
  | ninf => exact absurd hv (by decide)
  | pinf => cases u <;> first | exact absurd hu (by decide) | decide | trivial
  | fin q =>
    have hq : (0 : ℚ) ≤ q := (Fl.fin_le_fin 0 q).1 hv
    change u < .fin (d * q) at hu
    refine Fl.le_trans (Fl.le_of_lt hu) ((Fl.fin_le_fin _ _).2 ?_)
    nlinarith

namespace Ex
open NiaPy.Ex

/-- The parameters. -/
def par : Par := ⟨.fin (1 / 4), .fin (1 / 2), .fin (1 / 2), .fin 10, .fin 10, .fin (-10), .fin 10⟩

/-- Arithmetic without rounding; the only value of a function needed is `exp 0 = 1`. -/
@[reducible] def arith : Arith := exactArith fun _ _ => .fin 1

/-- `x ^ 2 - 20`. -/
def obj : ℕ → Vec 1 → Except PyErr Fl := fun _ x => .ok (match x 0 with | .fin q => .fin (q * q - 20) | _ => .fin 0)

/-- The camels start at 1 and -2; the second one walks half the way to the first one; both die and are born again at 2. -/
def draws : Draws where
  unif k := [1, 0, -2, 0, 10, 1 / 2, 10, 1 / 2].getD k 2

/-- One iteration. -/
def env : Env (Vec 1) := NiaPy.Ex.env obj .minimization none (some 1) none draws fun _ _ x i => clip1 (x i)

end Ex

omit [Arith] in
/-- C58 is false of the camel algorithm, here for `x ^ 2 - 20`: the camel that walks to the best solution, with fitness
-79/4, is dropped, since its previous fitness -16 is less than half of that. The run returns -19. -/
theorem C58_ca_false : ∃ env : Env (Vec 1), NoNaN env ∧ (@alg Ex.arith 1 .minimization (NiaPy.Ex.box 1) 2 Ex.par).LosesBest env :=
  ⟨Ex.env, fun k x r h => by
    have h : Except.ok (match x 0 with | .fin q => .fin (q * q - 20) | _ => .fin 0) = Except.ok (ε := PyErr) r := h
    cases h; split <;> simp, .of (fuel := 5) (f := .fin (-19)) (b := .fin (-79 / 4)) (by decide +kernel) (by decide +kernel)⟩

omit [Arith] in
/-- The hypotheses of `C58_ca_partial` hold of a concrete run. -/
example : @DeathLaw NiaPy.Ex.arith Ex.par.death ∧ NonnegObj (NiaPy.Ex.env2 (D := 1)) ∧
    (@alg NiaPy.Ex.arith 1 .minimization (NiaPy.Ex.box 1) 3 Ex.par).okIters NiaPy.Ex.env2 2 5 = some 2 := by
  refine ⟨deathLaw_exact _ _ (by norm_num) (by norm_num), fun k x r h => ?_, by decide +kernel⟩
  have h : Except.ok (match NiaPy.Ex.sumSq x with | .nan => .fin 0 | v => v) = Except.ok (ε := PyErr) r := h
  cases h
  have hs : NiaPy.Ex.sumSq x = Fl.addX 0 (Fl.mulX (x 0) (x 0)) := by simp [NiaPy.Ex.sumSq, List.ofFn_succ]; rfl
  rw [hs]
  cases hx : x 0 with
  | fin q => exact (Fl.fin_le_fin _ _).2 (by nlinarith [mul_self_nonneg q] : (0 : ℚ) ≤ 0 + q * q)
  | _ => decide

example : ∃ hist w, (@alg NiaPy.Ex.arith 1 .minimization (NiaPy.Ex.box 1) 3 Ex.par).Trace NiaPy.Ex.env2 1 hist w ∧ hist.length = 3 := by
  letI := NiaPy.Ex.arith
  exact (verified_any .minimization (NiaPy.Ex.box 1) 3 Ex.par).exists_trace NiaPy.Ex.env2 (metBy_noTracking _) (fuel := 5) (by decide +kernel)

end NiaPy.CA
