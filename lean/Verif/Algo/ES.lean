import Verif.Post

/-!
# Evolution strategies (`niapy/algorithms/basic/es.py`)
-/

namespace NiaPy.ES
open NiaPy
variable [Arith] {D : ℕ}

/-- Parameters (es.py:87-107). -/
structure Par where
  mu : ℕ
  k : ℕ
  cA : Fl
  cR : Fl
  epsilon : Fl

/-- `IndividualES` (es.py:17-36). -/
structure Ind (D : ℕ) where
  x : Vec D
  f : Fl
  rho : Fl

/-- `mutate` (es.py:149-160). -/
def mutate (x : Vec D) (rho : Fl) : Prog (Vec D) (Vec D) := do
  let z ← normVec D 0 rho
  return fun j => x j + z j

/-! ### (1+1) and (mu+1) -/

/-- State of a run: the parent and `ki` (es.py:181-196). Callbacks are shown the individual itself and its fitness as a
number; here they are lists of length one. -/
structure St (D : ℕ) where
  c : Ind D
  ki : ℕ

/-- `update_rho` (es.py:162-179); called with `k > 0` only. -/
def updateRho (p : Par) (rho : Fl) (ki : ℕ) : Fl :=
  let phi := Fl.ofNat ki / Fl.ofNat p.k
  if phi < lit 1 5 then (if p.epsilon < rho then p.cR * rho else 1)
  else if lit 1 5 < phi then (if p.epsilon < rho then p.cA * rho else 1)
  else rho

/-- `init_population` (es.py:181-196): one individual, whatever `mu` is. -/
def init (opt : OptType) (B : Box D) : Prog (Vec D) (St D) := do
  let i ← Indiv.random opt B
  return ⟨⟨i.x, i.f, 1⟩, 0⟩

/-- es.py:221-222 -/
def adapt (p : Par) (iters : ℕ) (s : St D) : St D :=
  if (iters + 1) % p.k = 0 then ⟨{ s.c with rho := updateRho p s.c.rho s.ki }, 0⟩ else s

/-- es.py:226-230, given the best of the new points -/
def accept (s : St D) (b : Vec D × Fl) (xb : Vec D) (fxb : Fl) : St D × Vec D × Fl :=
  if b.2 < s.c.f then
    let s' : St D := ⟨⟨b.1, b.2, s.c.rho⟩, s.ki + 1⟩
    if b.2 < fxb then (s', getBest1 b.1 b.2 xb fxb) else (s', xb, fxb)
  else (s, xb, fxb)

/-- `run_iteration` (es.py:198-230). Without points (`mu = 0`) `np.argmin` raises `ValueError`; `k = 0` raises
`ZeroDivisionError`. -/
def iter (p : Par) (s : St D) (xb : Vec D) (fxb : Fl) : Prog (Vec D) (St D × Vec D × Fl) := do
  let v ← Prog.look
  if p.k = 0 then .throw .zeroDivisionError
  else do
    let s := adapt p v.iters s
    let cn ← mapM' (List.range p.mu) fun _ => do
      let y ← mutate s.c.x s.c.rho
      Prog.repair y
    let cn ← evalRecs cn
    let b ← argminRec (·.2) cn
    return accept s b xb fxb

/-- `EvolutionStrategy1p1` (es.py:39-230) and `EvolutionStrategyMp1` (es.py:233-287), which differ in the default of `mu`. -/
def alg1 (opt : OptType) (B : Box D) (p : Par) : Alg (Vec D) where
  σ := St D
  init := init opt B
  pop s := [s.c.x]
  fit s := [s.c.f]
  iter := iter p

/-! ### (mu+lambda) -/

/-- State of a run (es.py:415-434). -/
structure StL (D : ℕ) where
  pop : List (Ind D)
  ki : ℕ

/-- `mutate_rand` (es.py:401-413). -/
def mutateRand (mu : ℕ) (l : List (Ind D)) : Prog (Vec D) (Vec D) := do
  let i ← Prog.int mu
  match l[i]? with
  | none => .throw .indexError
  | some c => do
    let y ← mutate c.x c.rho
    Prog.repair y

/-- `IndividualES(x=x, task=task, rng=self.rng)`; the step size is always 1 (es.py:25-36). With `rand=self.rng` (es.py:571)
the generator is not passed on (`seeded = false`). -/
def newInd (x : Vec D) (seeded : Bool) : Prog (Vec D) (Ind D) := do
  let x ← Prog.repair x seeded
  let f ← Prog.eval x
  return ⟨x, f, 1⟩

/-- `update_rho` (es.py:367-381) -/
def updateRhos (p : Par) (l : List (Ind D)) (ki : ℕ) : List (Ind D) :=
  let phi := Fl.ofNat ki / Fl.ofNat p.k
  if phi < lit 1 5 then l.map fun i => { i with rho := p.cR * i.rho }
  else if lit 1 5 < phi then l.map fun i => { i with rho := p.cA * i.rho }
  else l

/-- `change_count` (es.py:383-399): how many of the selected individuals are not among the old ones. Each selected
individual is tagged with whether it is an old one (the test `in` finds these at once). -/
def changeCount (c : List (Ind D)) (cn : List (Ind D × Bool)) : ℕ :=
  (cn.filter fun e => !(e.2 || c.any fun o => Indiv.beq ⟨e.1.x, e.1.f⟩ ⟨o.x, o.f⟩)).length

/-- `init_population` (es.py:415-434). -/
def initL (opt : OptType) (B : Box D) (mu : ℕ) : Prog (Vec D) (StL D) := do
  let p ← defaultIndividualInit opt B mu
  return ⟨List.ofFn fun i => ⟨(p i).x, (p i).f, 1⟩, 0⟩

/-- es.py:459-460 -/
def adaptL (p : Par) (iters : ℕ) (s : StL D) : StL D :=
  if (iters + 1) % p.k = 0 then ⟨updateRhos p s.pop s.ki, 0⟩ else s

/-- `run_iteration` (es.py:436-468). -/
def iterL (p : Par) (lam : ℕ) (s : StL D) (xb : Vec D) (fxb : Fl) : Prog (Vec D) (StL D × Vec D × Fl) := do
  let v ← Prog.look
  if p.k = 0 then .throw .zeroDivisionError
  else do
    let s := adaptL p v.iters s
    let cn ← mapM' (List.range lam) fun _ => do
      let y ← mutateRand p.mu s.pop
      newInd y true
    let cn ← sortRecs (fun e : Ind D × Bool => e.1.f) (cn.map (·, false) ++ s.pop.map (·, true))
    let cn := cn.take p.mu
    let ki := s.ki + changeCount s.pop cn
    let l := cn.map (·.1)
    let (xb, fxb) ← Prog.getBest (l.map (·.x)) (l.map (·.f)) xb fxb
    return (⟨l, ki⟩, xb, fxb)

/-- `EvolutionStrategyMpL` (es.py:290-468). -/
def algL (opt : OptType) (B : Box D) (p : Par) (lam : ℕ) : Alg (Vec D) where
  σ := StL D
  init := initL opt B p.mu
  pop s := s.pop.map (·.x)
  fit s := s.pop.map (·.f)
  iter := iterL p lam

/-! ### (mu,lambda) -/

/-- `new_pop` (es.py:513-529). For `mu ≥ lambda` the new individuals are repeated until there are `mu`; `lambda = 0` raises
`ZeroDivisionError`. -/
def newPop (mu lam : ℕ) (l : List (Ind D)) : Prog (Vec D) (List (Ind D)) := do
  let r ← sortRecs (fun e : Ind D => e.f) l
  if mu < lam then return r.take mu
  else if lam = 0 then .throw .zeroDivisionError
  else return (List.range ((mu + lam - 1) / lam)).flatMap fun i => l.take (if lam ≤ mu - i * lam then lam else mu - i * lam)

/-- `run_iteration` (es.py:550-575). -/
def iterM (mu lam : ℕ) (l : List (Ind D)) (xb : Vec D) (fxb : Fl) : Prog (Vec D) (List (Ind D) × Vec D × Fl) := do
  let cn ← mapM' (List.range lam) fun _ => do
    let y ← mutateRand mu l
    newInd y false
  let l ← newPop mu lam cn
  let (xb, fxb) ← Prog.getBest (l.map (·.x)) (l.map (·.f)) xb fxb
  return (l, xb, fxb)

/-- `EvolutionStrategyML` (es.py:471-575). -/
def algM (opt : OptType) (B : Box D) (mu lam : ℕ) : Alg (Vec D) where
  σ := List (Ind D)
  init := do
    let s ← initL opt B mu
    return s.pop
  pop l := l.map (·.x)
  fit l := l.map (·.f)
  iter := iterM mu lam

/-! ### Proofs -/

variable {C : Ctx (Vec D)} {g : Ghost (Vec D)}

theorem quiet_mutate {x : Vec D} {rho : Fl} : Quiet C (mutate x rho) := by unfold mutate; yields
macro_rules | `(tactic| yields_step) => `(tactic| exact quiet_mutate)

theorem yields_mutateRand {mu : ℕ} {l : List (Ind D)} : Yields C (mutateRand mu l) C.G := by
  unfold mutateRand
  refine .bindT Yields.int.quiet fun i => ?_
  split
  · exact .throw nofun
  · yields

theorem adapt_c (p : Par) (n : ℕ) (s : St D) : (adapt p n s).c.x = s.c.x ∧ (adapt p n s).c.f = s.c.f := by
  unfold adapt; split <;> exact ⟨rfl, rfl⟩

theorem verified1 (opt : OptType) (B : Box D) (p : Par) : Verified (alg1 opt B p) (fun _ => False) true true (.exact 1 p.mu) := by
  refine ⟨fun C (s : St D) b => C.Fit b s.c.x s.c.f ∧ (C.NN → s.c.f = b), fun C _ _ _ => ⟨fun s b h => .cons h.1 .nil, fun g hg => ?_, ?_⟩⟩
  · simp only [alg1, init, Prog.wp_bind']
    refine wp_indivRandom fun y v _ hv => ⟨⟨.new hv, fun hn => ?_⟩, ?_, rfl⟩
    · simp only [Ghost.eval, hg]
      have := hn _ _ hv
      cases v <;> simp_all
    · exact ((Cov.pinf hg fun _ => False).eval v).mono fun u hu => by simpa using hu
  · intro s xb fxb g hI hF hc
    have hinc : Inc C xb fxb g := ⟨hF, hc⟩
    obtain ⟨hfit, heq⟩ := hI
    have hfit : C.Fit g.b s.c.x s.c.f := hfit
    simp only [alg1, iter, Prog.wp_bind']
    refine Yields.look.wp fun v _ => ?_
    split
    · exact nofun
    simp only [Prog.wp_bind']
    refine (Yields.mapMAll (P := C.G) fun _ _ => by yields).wp fun cn hcn => ?_
    refine wp_evalRecs hcn.1 hinc.cov fun r g1 _ hb hf hcov hmap hn => wp_argminRec fun a ha hmin => ?_
    have hl : cn.length = p.mu := by simpa using hcn.2
    have ha' := hf a ha
    have hle : C.NN → ∀ e ∈ r, a.2 ≤ e.2 := fun hn => hmin fun e he => hn _ _ (hf e he).1
    have hcost : Cost.Ok (.exact 1 p.mu) g.c g1.c := Cost.ok_exact (by rw [hn, hl])
    have hx1 := hinc.toFit.mono hb
    have hs := adapt_c p v.iters s
    generalize adapt p v.iters s = s' at hs
    obtain ⟨hsx, hsf⟩ := hs
    have hsfit : C.Fit g1.b s'.c.x s'.c.f := by rw [hsx, hsf]; exact hfit.mono hb
    have hss : C.NN → s'.c.f = fxb := fun hn => by rw [hsf, heq hn, hc hn]
    have hbest : Inc C (NiaPy.betterLt a.1 a.2 xb fxb).1 (NiaPy.betterLt a.1 a.2 xb fxb).2 g1 := Inc.argminLt (pt := fun e : Vec D × Fl => e.1) (val := fun e => e.2) ha hmin hf hx1 hcov
    change (fun r (g' : Ghost (Vec D)) => _) (accept s' a xb fxb) g1
    unfold accept
    by_cases h1 : a.2 < s'.c.f
    · rw [if_pos h1]
      by_cases h2 : a.2 < fxb
      · have h3 : a.2 ≤ fxb := Fl.le_of_lt h2
        simp only [NiaPy.betterLt, if_pos h2, getBest1, if_pos h3] at hbest ⊢
        exact ⟨⟨ha', hbest.eq⟩, hbest.fit, hbest.eq, hcost⟩
      · simp only [NiaPy.betterLt, if_neg h2] at hbest ⊢
        exact ⟨⟨ha', fun hn => absurd (hss hn ▸ h1) h2⟩, hbest.fit, hbest.eq, hcost⟩
    · rw [if_neg h1]
      have h2 : C.NN → ¬ a.2 < fxb := fun hn => hss hn ▸ h1
      refine ⟨⟨hsfit, fun hn => ?_⟩, hF, fun hn => ?_, hcost⟩
      · have := hbest.eq hn
        simp only [NiaPy.betterLt, if_neg (h2 hn)] at this
        rw [hss hn, this]
      · have := hbest.eq hn
        simpa only [NiaPy.betterLt, if_neg (h2 hn)] using this

theorem wp_newInd {x : Vec D} {s : Bool} (h : s = true ∨ C.ent) {Q : Ind D → Ghost (Vec D) → Prop}
    (hQ : ∀ y v, C.F y v → Q ⟨y, v, 1⟩ (g.eval v)) : (newInd x s).wp C Q g := by
  simp only [newInd, Prog.wp_bind', Prog.wp_repair, Prog.wp_eval]
  exact ⟨h, fun y hy _ => ⟨hy, fun v hv => hQ y v hv⟩⟩

theorem wp_offspring {mu lam : ℕ} {l : List (Ind D)} {s : Bool} (h : s = true ∨ C.ent) {S : Fl → Prop} (h0 : Cov C S g)
    {Q : List (Ind D) → Ghost (Vec D) → Prop}
    (hQ : ∀ r g', Below g'.b g.b → Cov C (fun u => S u ∨ ∃ e ∈ r, u = e.f) g' → (∀ e ∈ r, C.Fit g'.b e.x e.f) → r.length = lam →
      g'.c = g.c + lam → Q r g') :
    (mapM' (List.range lam) fun _ => do
      let y ← mutateRand mu l
      newInd y s).wp C Q g := by
  refine Prog.wp_mono (fun r g' h => ?_) (Prog.wp_below (wp_mapM_cov (fun a : Ind D => a.x) (fun a => a.f) (fun _ => True) 1 h0
    fun b _ g S hS => ?_))
  · obtain ⟨⟨h1, h2, -, h3, h4⟩, hb⟩ := h
    exact hQ r g' hb h1 h2 (by simpa using h3) (by simpa using h4)
  · simp only [Prog.wp_bind']
    exact yields_mutateRand.wp fun y _ => wp_newInd h fun y v hv => ⟨(hS.eval v).mono fun u hu => hu.symm, .new hv, trivial, rfl⟩

theorem updateRhos_fit {p : Par} {l : List (Ind D)} {ki : ℕ} {b : Fl} (h : ∀ e ∈ l, C.Fit b e.x e.f) :
    ∀ e ∈ updateRhos p l ki, C.Fit b e.x e.f := by
  unfold updateRhos
  dsimp only
  split
  · intro e he
    obtain ⟨e', h1, rfl⟩ := List.mem_map.1 he
    exact h e' h1
  · split
    · intro e he
      obtain ⟨e', h1, rfl⟩ := List.mem_map.1 he
      exact h e' h1
    · exact h

theorem adaptL_fit {p : Par} {s : StL D} {n : ℕ} {b : Fl} (h : ∀ e ∈ s.pop, C.Fit b e.x e.f) :
    ∀ e ∈ (adaptL p n s).pop, C.Fit b e.x e.f := by
  unfold adaptL
  split
  · exact updateRhos_fit h
  · exact h

theorem wp_initL {opt : OptType} {B : Box D} {mu : ℕ} (hg : g.b = .pinf) {Q : StL D → Ghost (Vec D) → Prop}
    (hQ : ∀ s g', (∀ e ∈ s.pop, C.Fit g'.b e.x e.f) → Cov C (· ∈ s.pop.map (·.f)) g' → g'.c = g.c + mu → Q s g') :
    (initL opt B mu).wp C Q g := by
  simp only [initL, Prog.wp_bind']
  refine wp_initInd hg fun r g' _ h2 h3 h4 => hQ _ _ (fun e he => ?_) (h3.mono fun u hu => ?_) h4
  · obtain ⟨i, rfl⟩ := List.mem_ofFn.1 he
    exact h2 i
  · obtain ⟨i, rfl⟩ := mem_ofFn_iff.1 hu
    exact List.mem_map.2 ⟨_, List.mem_ofFn.2 ⟨i, rfl⟩, rfl⟩

theorem wp_iterL {p : Par} {lam : ℕ} {s : StL D} {xb : Vec D} {fxb : Fl} (hI : ∀ e ∈ s.pop, C.Fit g.b e.x e.f) (hinc : Inc C xb fxb g) :
    (iterL p lam s xb fxb).wp C (fun r g' => (∀ e ∈ r.1.pop, C.Fit g'.b e.x e.f) ∧ Inc C r.2.1 r.2.2 g' ∧ g'.c = g.c + lam) g := by
  simp only [iterL, Prog.wp_bind']
  refine Yields.look.wp fun v _ => ?_
  split
  · exact nofun
  simp only [Prog.wp_bind']
  have hI' := adaptL_fit (p := p) (n := v.iters) hI
  generalize adaptL p v.iters s = s' at hI'
  refine wp_offspring (Or.inl rfl) hinc.cov fun cn g1 hb hc hf _ hn => ?_
  have hall : ∀ e ∈ cn.map (·, false) ++ s'.pop.map (·, true), C.Fit g1.b e.1.x e.1.f := fun e he => by
    rcases List.mem_append.1 he with he | he
    · obtain ⟨e', h1, rfl⟩ := List.mem_map.1 he; exact hf e' h1
    · obtain ⟨e', h1, rfl⟩ := List.mem_map.1 he; exact (hI' e' h1).mono hb
  refine Yields.sortRecs.wp fun r hr => ?_
  have hcov : Cov C (fun u => u = fxb ∨ ∃ e ∈ cn.map (·, false) ++ s'.pop.map (·, true), u = e.1.f) g1 := hc.mono fun u hu =>
    hu.imp_right fun ⟨e, he, h⟩ => ⟨(e, false), List.mem_append.2 (Or.inl (List.mem_map.2 ⟨e, he, rfl⟩)), h⟩
  have hr' : ∀ e ∈ (r.take p.mu).map (·.1), C.Fit g1.b e.x e.f := fun e he => by
    obtain ⟨e', h1, rfl⟩ := List.mem_map.1 he
    exact hall e' (hr.1.mem_iff.1 (List.mem_of_mem_take h1))
  rcases Nat.eq_zero_or_pos p.mu with h0 | h0
  · simp only [h0, List.take_zero, List.map_nil, Prog.getBest, Prog.wp_ofExcept, getBest, argmin]
    exact ⟨nofun, nofun⟩
  · have hcov2 := hcov.sorted hr.1 hr.2 (fun hn e he => hn _ _ (hall e he).1) h0
    refine wp_getBest_recs hr' (hinc.toFit.mono hb) (hcov2.mono fun u hu => hu.imp_right fun ⟨e, he, h⟩ => ⟨e.1, List.mem_map.2 ⟨e, he, rfl⟩, h⟩)
      fun b hi => ⟨hr', hi, hn⟩

theorem verifiedL (opt : OptType) (B : Box D) (p : Par) (lam : ℕ) :
    Verified (algL opt B p lam) (fun _ => False) true true (.exact p.mu lam) := by
  refine ⟨fun C (s : StL D) b => ∀ e ∈ s.pop, C.Fit b e.x e.f, fun C _ _ _ => ⟨fun s b h => forall₂_map h, fun g hg => ?_, ?_⟩⟩
  · exact wp_initL hg fun s g' h1 h2 h3 => ⟨h1, h2, h3⟩
  · intro s xb fxb g hI hF hc
    exact Prog.wp_mono (fun r g' h => ⟨h.1, h.2.1.fit, h.2.1.eq, Cost.ok_exact h.2.2⟩) (wp_iterL hI ⟨hF, hc⟩)

theorem wp_newPop {mu lam : ℕ} {l : List (Ind D)} {S : Fl → Prop} (hlen : l.length = lam) (hf : ∀ e ∈ l, C.Fit g.b e.x e.f)
    (hc : Cov C (fun u => S u ∨ ∃ e ∈ l, u = e.f) g) {Q : List (Ind D) → Ghost (Vec D) → Prop}
    (hQ : ∀ r, (∀ e ∈ r, C.Fit g.b e.x e.f) → (r ≠ [] → Cov C (fun u => S u ∨ ∃ e ∈ r, u = e.f) g) → Q r g) : (newPop mu lam l).wp C Q g := by
  simp only [newPop, Prog.wp_bind']
  refine Yields.sortRecs.wp fun r hr => ?_
  split
  · refine hQ _ (fun e he => hf e (hr.1.mem_iff.1 (List.mem_of_mem_take he))) fun hne => ?_
    exact hc.sorted hr.1 hr.2 (fun hn e he => hn _ _ (hf e he).1) (Nat.pos_of_ne_zero fun h => hne (by simp [h]))
  · split
    · exact nofun
    · rename_i h1 h2
      refine hQ _ (fun e he => ?_) fun _ => hc.mono fun u hu => hu.imp_right fun ⟨e, he, h⟩ => ⟨e, ?_, h⟩
      · obtain ⟨i, -, hi⟩ := List.mem_flatMap.1 he
        exact hf e (List.mem_of_mem_take hi)
      · refine List.mem_flatMap.2 ⟨0, List.mem_range.2 (Nat.div_pos (by omega) (by omega)), ?_⟩
        have : lam ≤ mu := by omega
        simp only [Nat.zero_mul, Nat.sub_zero, if_pos this]
        rwa [List.take_of_length_le (by omega)]

theorem wp_iterM {mu lam : ℕ} {l : List (Ind D)} {xb : Vec D} {fxb : Fl} (hent : C.ent) (hinc : Inc C xb fxb g) :
    (iterM mu lam l xb fxb).wp C (fun r g' => (∀ e ∈ r.1, C.Fit g'.b e.x e.f) ∧ Inc C r.2.1 r.2.2 g' ∧ g'.c = g.c + lam) g := by
  simp only [iterM, Prog.wp_bind']
  refine wp_offspring (Or.inr hent) hinc.cov fun cn g1 hb hc hf hl hn => ?_
  refine wp_newPop hl hf hc fun r hr hcr => ?_
  by_cases h0 : r = []
  · simp only [h0, List.map_nil, Prog.getBest, Prog.wp_ofExcept, getBest, argmin]
    exact ⟨nofun, nofun⟩
  · exact wp_getBest_recs hr (hinc.toFit.mono hb) (hcr h0) fun b hi => ⟨hr, hi, hn⟩

theorem verifiedM (opt : OptType) (B : Box D) (mu lam : ℕ) :
    Verified (algM opt B mu lam) (fun _ => False) false true (.exact mu lam) := by
  refine ⟨fun C (l : List (Ind D)) b => ∀ e ∈ l, C.Fit b e.x e.f, fun C _ hent _ => ⟨fun s b h => forall₂_map h, fun g hg => ?_, ?_⟩⟩
  · simp only [algM, Prog.wp_bind']
    exact wp_initL hg fun s g' h1 h2 h3 => ⟨h1, h2, h3⟩
  · intro s xb fxb g hI hF hc
    exact Prog.wp_mono (fun r g' h => ⟨h.1, h.2.1.fit, h.2.1.eq, Cost.ok_exact h.2.2⟩) (wp_iterM (hent rfl) ⟨hF, hc⟩)

/-! ## C91: step sizes -/

section
variable {env : Env (Vec D)}

omit [Arith] in
theorem post_mapM {α β : Type} {l : List β} {f : β → Prog (Vec D) α} {P : α → Prop} (h : ∀ b ∈ l, Post env (f b) P) :
    Post env (mapM' l f) fun r => ∀ a ∈ r, P a := by
  induction l with
  | nil => exact .pure' nofun
  | cons b l ih =>
    refine .bind (h b (by simp)) fun a ha => .bind (ih fun b hb => h b (by simp [hb])) fun r hr => .pure' ?_
    simpa using ⟨ha, hr⟩

theorem post_newInd {x : Vec D} {s : Bool} : Post env (newInd x s) fun e : Ind D => e.rho = 1 :=
  .bind' .any fun _ _ => .bind' .any fun _ _ => .pure' rfl

theorem post_offspring {mu lam : ℕ} {l : List (Ind D)} {s : Bool} :
    Post env (mapM' (List.range lam) fun _ => do
      let y ← mutateRand mu l
      newInd y s) fun r : List (Ind D) => ∀ e ∈ r, e.rho = 1 :=
  post_mapM fun _ _ => .bind' .any fun _ _ => post_newInd

theorem post_initL {opt : OptType} {B : Box D} {mu : ℕ} : Post env (initL opt B mu) fun s : StL D => ∀ e ∈ s.pop, e.rho = 1 :=
  .bind' .any fun _ _ => .pure' fun e he => by
    simp only [List.mem_ofFn] at he
    obtain ⟨i, rfl⟩ := he
    rfl

theorem post_newPop {mu lam : ℕ} {l : List (Ind D)} : Post env (newPop mu lam l) fun r : List (Ind D) => ∀ e ∈ r, e ∈ l := by
  refine .bind' (.yields Yields.sortRecs) fun r hr => ?_
  split
  · exact .pure' fun e he => hr.1.mem_iff.1 (List.mem_of_mem_take he)
  split
  · exact fun _ _ _ h => by cases h
  · refine .pure' fun e he => ?_
    rw [List.mem_flatMap] at he
    obtain ⟨i, -, he⟩ := he
    exact List.mem_of_mem_take he

/-- **C91 fails for ES(mu,lambda)**: in every population of every run all step sizes are 1, so nothing is adapted and `k`, `c_a`, `c_r` and `epsilon`
do not matter. -/
theorem C91_ml_false (opt : OptType) (B : Box D) (mu lam : ℕ) (env : Env (Vec D)) (ncb : ℕ) (hist : List ((algM opt B mu lam).σ × Vec D × Fl))
    (w : World (Vec D)) (ht : (algM opt B mu lam).Trace env ncb hist w) : ∀ r ∈ hist, ∀ e : Ind D, List.Mem e r.1 → e.rho = 1 := by
  refine (ht.post (P := fun r => ∀ e : Ind D, List.Mem e r.1 → e.rho = 1) (R := fun _ _ => True) (fun s b ⟨w, w', hs⟩ _ => ?_) fun r _ => ?_).1
  · exact (Post.bind' (post_initL (opt := opt) (B := B) (mu := mu)) fun s hs => .pure' hs : Post env _ fun s : List (Ind D) => ∀ e ∈ s, e.rho = 1) w w' s hs
  · refine Post.bind' post_offspring fun cn hcn => .bind' post_newPop fun l hl => .bind' .any fun b _ => .pure' ⟨fun e he => hcn e (hl e he), trivial⟩

/-- What ES(mu+lambda) can do to the step size of an individual it keeps. -/
def Kept (p : Par) (o e : Ind D) : Prop := e.x = o.x ∧ e.f = o.f ∧ (e.rho = o.rho ∨ e.rho = p.cR * o.rho ∨ e.rho = p.cA * o.rho)

theorem adaptL_kept {p : Par} {k : ℕ} {s : StL D} : ∀ e ∈ (adaptL p k s).pop, ∃ o ∈ s.pop, Kept p o e := by
  intro e he
  unfold adaptL at he
  split at he
  · simp only [updateRhos] at he
    split at he
    · obtain ⟨o, ho, rfl⟩ := List.mem_map.1 he
      exact ⟨o, ho, rfl, rfl, .inr (.inl rfl)⟩
    · split at he
      · obtain ⟨o, ho, rfl⟩ := List.mem_map.1 he
        exact ⟨o, ho, rfl, rfl, .inr (.inr rfl)⟩
      · exact ⟨e, he, rfl, rfl, .inl rfl⟩
  · exact ⟨e, he, rfl, rfl, .inl rfl⟩

theorem iterL_kept {p : Par} {lam : ℕ} (s : StL D) (xb : Vec D) (fxb : Fl) :
    Post env (iterL p lam s xb fxb) fun r' => ∀ e ∈ r'.1.pop, e.rho = 1 ∨ ∃ o ∈ s.pop, Kept p o e := by
  refine Post.bind' .any fun v _ => ?_
  simp only
  split
  · exact fun _ _ _ h => by cases h
  refine Post.bind' post_offspring fun cn hcn => .bind' (.yields Yields.sortRecs) fun cs hcs => .bind' .any fun b _ => .pure' fun e he => ?_
  obtain ⟨⟨e', t⟩, he', rfl⟩ := List.mem_map.1 he
  have := hcs.1.mem_iff.1 (List.mem_of_mem_take he')
  rcases List.mem_append.1 this with h | h
  · obtain ⟨a, ha, h⟩ := List.mem_map.1 h
    cases h
    exact .inl (hcn _ ha)
  · obtain ⟨a, ha, h⟩ := List.mem_map.1 h
    cases h
    exact .inr (adaptL_kept _ ha)

/-- **C91.** In every run of ES(mu+lambda) an individual of the next population is an old one, with its step size or that multiplied by `c_r` or `c_a`,
or a new one with step size 1, whatever the step size of its parent is. -/
theorem C91_mpl_partial (opt : OptType) (B : Box D) (p : Par) (lam : ℕ) (env : Env (Vec D)) (ncb : ℕ) (hist : List ((algL opt B p lam).σ × Vec D × Fl))
    (w : World (Vec D)) (ht : (algL opt B p lam).Trace env ncb hist w) :
    hist.IsChain fun r' r => ∀ e ∈ StL.pop r'.1, e.rho = 1 ∨ ∃ o ∈ StL.pop r.1, Kept p o e := by
  exact (ht.post (P := fun _ => True) (fun _ _ _ _ => trivial) fun r _ => (iterL_kept r.1 r.2.1 r.2.2).mono fun _ h => ⟨trivial, h⟩).2

theorem adapt_steps {p : Par} {k : ℕ} {s : St D} : (adapt p k s).c.rho = s.c.rho ∨
    (p.epsilon < s.c.rho ∧ ((adapt p k s).c.rho = p.cR * s.c.rho ∨ (adapt p k s).c.rho = p.cA * s.c.rho)) ∨
      (¬ p.epsilon < s.c.rho ∧ (adapt p k s).c.rho = 1) := by
  unfold adapt
  split
  · simp only [updateRho]
    split
    · split
      · exact .inr (.inl ⟨‹_›, .inl rfl⟩)
      · exact .inr (.inr ⟨‹_›, rfl⟩)
    · split
      · split
        · exact .inr (.inl ⟨‹_›, .inr rfl⟩)
        · exact .inr (.inr ⟨‹_›, rfl⟩)
      · exact .inl rfl
  · exact .inl rfl

/-- **C91.** In every run of ES(1+1) and ES(mu+1) the next parent has the step size of the one before, or that multiplied by `c_r` or `c_a`, or 1 if that was
not above `epsilon`. -/
theorem C91_1p1 (opt : OptType) (B : Box D) (p : Par) (env : Env (Vec D)) (ncb : ℕ) (hist : List ((alg1 opt B p).σ × Vec D × Fl))
    (w : World (Vec D)) (ht : (alg1 opt B p).Trace env ncb hist w) :
    hist.IsChain fun r' r => (St.c r'.1).rho = (St.c r.1).rho ∨
      (p.epsilon < (St.c r.1).rho ∧ ((St.c r'.1).rho = p.cR * (St.c r.1).rho ∨ (St.c r'.1).rho = p.cA * (St.c r.1).rho)) ∨
      (¬ p.epsilon < (St.c r.1).rho ∧ (St.c r'.1).rho = 1) := by
  refine (ht.post (P := fun _ => True) (fun _ _ _ _ => trivial) fun r _ => ?_).2
  refine Post.bind' .any fun v _ => ?_
  simp only
  split
  · exact fun _ _ _ h => by cases h
  refine Post.bind' .any fun cn _ => .bind' .any fun cf _ => .bind' .any fun b _ => .pure' ⟨trivial, ?_⟩
  have hacc : ∀ s : St D, (accept s b r.2.1 r.2.2).1.c.rho = s.c.rho := fun s => by
    simp only [accept]
    split
    · split <;> rfl
    · rfl
  rcases adapt_steps (p := p) (k := v.iters) (s := r.1) with h | ⟨h, h'⟩ | ⟨h, h'⟩
  · exact .inl ((hacc _).trans h)
  · exact .inr (.inl ⟨h, h'.imp (hacc _).trans (hacc _).trans⟩)
  · exact .inr (.inr ⟨h, (hacc _).trans h'⟩)

/-- How often, in a list of values given latest first, a value is strictly less than the one before. -/
def successes : List Fl → ℕ
  | f' :: f :: l => (if f' < f then 1 else 0) + successes (f :: l)
  | _ => 0

omit [Arith] in
theorem successes_cons {f' f : Fl} {l : List Fl} {n : ℕ} :
    successes ((f' :: f :: l).take (n + 2)) = (if f' < f then 1 else 0) + successes ((f :: l).take (n + 1)) := rfl

theorem adapt_due {p : Par} {n : ℕ} {s : St D} (h : (n + 1) % p.k = 0) : adapt p n s = ⟨⟨s.c.x, s.c.f, updateRho p s.c.rho s.ki⟩, 0⟩ := if_pos h

theorem adapt_not {p : Par} {n : ℕ} {s : St D} (h : ¬ (n + 1) % p.k = 0) : adapt p n s = s := if_neg h

omit [Arith] in
theorem next_mod {n k : ℕ} (hk : k ≠ 0) : ((n + 1) % k = 0 ∧ n % k = k - 1) ∨ (n + 1) % k ≠ 0 ∧ (n + 1) % k = n % k + 1 := by
  have h1 := Nat.mod_lt n (Nat.pos_of_ne_zero hk)
  have h2 : (n + 1) % k = (n % k + 1) % k := by rw [Nat.mod_add_mod]
  by_cases h : n % k + 1 = k
  · exact .inl ⟨by rw [h2, h, Nat.mod_self], by omega⟩
  · have h3 : (n % k + 1) % k = n % k + 1 := Nat.mod_eq_of_lt (by omega)
    exact .inr ⟨by omega, by omega⟩

theorem iter_rule {p : Par} {s : St D} {xb : Vec D} {fxb : Fl} {w w' : World (Vec D)} {r' : St D × Vec D × Fl}
    (h : (iter p s xb fxb).run env w = (.ok r', w')) : p.k ≠ 0 ∧
      r'.1.ki = (if (w.st.iters + 1) % p.k = 0 then 0 else s.ki) + (if r'.1.c.f < s.c.f then 1 else 0) ∧
      r'.1.c.rho = if (w.st.iters + 1) % p.k = 0 then updateRho p s.c.rho s.ki else s.c.rho := by
  unfold iter at h
  simp only [Prog.bind_def, Prog.run_bind, Prog.run_look] at h
  by_cases hk : p.k = 0
  · rw [if_pos hk] at h; cases h
  rw [if_neg hk] at h
  refine ⟨hk, ?_⟩
  have hf : (adapt p w.st.iters s).c.f = s.c.f ∧ (adapt p w.st.iters s).ki = (if (w.st.iters + 1) % p.k = 0 then 0 else s.ki) ∧
      (adapt p w.st.iters s).c.rho = if (w.st.iters + 1) % p.k = 0 then updateRho p s.c.rho s.ki else s.c.rho := by
    by_cases hz : (w.st.iters + 1) % p.k = 0
    · simp only [adapt_due hz, if_pos hz, and_self]
    · simp only [adapt_not hz, if_neg hz, and_self]
  rw [← hf.2.1, ← hf.2.2, ← hf.1]
  have hfin : ∀ s : St D, Post env (do
      let cn ← mapM' (List.range p.mu) fun _ => do
        let y ← mutate s.c.x s.c.rho
        Prog.repair y
      let cn ← evalRecs cn
      let b ← argminRec (·.2) cn
      return accept s b xb fxb) fun r' => r'.1.ki = s.ki + (if r'.1.c.f < s.c.f then 1 else 0) ∧ r'.1.c.rho = s.c.rho := by
    intro s
    refine Post.bind' .any fun cn _ => .bind' .any fun cf _ => .bind' .any fun b _ => .pure' ?_
    simp only [accept]
    split
    · next h => split <;> exact ⟨by simp only [if_pos h], rfl⟩
    · exact ⟨by simp [Fl.lt_irrefl], rfl⟩
  exact hfin _ _ _ _ h

theorem iter_sizes {p : Par} {s : St D} {xb : Vec D} {fxb : Fl} {w w' : World (Vec D)} {r' : St D × Vec D × Fl}
    (h : (iter p s xb fxb).run env w = (.ok r', w')) (hs : ∃ l : List Fl, (∀ c ∈ l, c = p.cR ∨ c = p.cA) ∧ s.c.rho = l.foldr (· * ·) 1) :
    ∃ l : List Fl, (∀ c ∈ l, c = p.cR ∨ c = p.cA) ∧ r'.1.c.rho = l.foldr (· * ·) 1 := by
  obtain ⟨l, hl, e⟩ := hs
  have h3 := (iter_rule h).2.2
  by_cases hz : (w.st.iters + 1) % p.k = 0
  · have ha := adapt_steps (p := p) (k := w.st.iters) (s := s)
    rw [adapt_due hz] at ha
    rw [if_pos hz] at h3
    rcases ha with ha | ⟨-, ha | ha⟩ | ⟨-, ha⟩
    · exact ⟨l, hl, h3.trans (ha.trans e)⟩
    · exact ⟨p.cR :: l, by simpa using hl, h3.trans (ha.trans (congrArg (p.cR * ·) e))⟩
    · exact ⟨p.cA :: l, by simpa using hl, h3.trans (ha.trans (congrArg (p.cA * ·) e))⟩
    · exact ⟨[], nofun, h3.trans ha⟩
  · rw [if_neg hz] at h3
    exact ⟨l, hl, h3.trans e⟩

/-- **C91.** Every step size of every run of ES(1+1) and ES(mu+1) is 1 multiplied by some number of factors `c_r` and `c_a`; in particular the first parent
starts with step size 1. -/
theorem C91_1p1_sizes (opt : OptType) (B : Box D) (p : Par) (env : Env (Vec D)) (ncb : ℕ) (hist : List ((alg1 opt B p).σ × Vec D × Fl))
    (w : World (Vec D)) (ht : (alg1 opt B p).Trace env ncb hist w) :
    ∀ r ∈ hist, ∃ l : List Fl, (∀ c ∈ l, c = p.cR ∨ c = p.cA) ∧ (St.c r.1).rho = l.foldr (· * ·) 1 := by
  refine (ht.post (P := fun r => ∃ l : List Fl, (∀ c ∈ l, c = p.cR ∨ c = p.cA) ∧ (St.c r.1).rho = l.foldr (· * ·) 1) (R := fun _ _ => True)
    (fun s b ⟨w, w', hs⟩ _ => ?_) fun r hr => ?_).1
  · have : Post env (init opt B) fun s : St D => s.c.rho = 1 := .bind' .any fun _ _ => .pure' rfl
    exact ⟨[], nofun, this _ _ _ hs⟩
  · exact fun w w' r' h => ⟨iter_sizes h hr, trivial⟩

/-- **C91.** Likewise for every individual of every population of ES(mu+lambda). -/
theorem C91_mpl_sizes (opt : OptType) (B : Box D) (p : Par) (lam : ℕ) (env : Env (Vec D)) (ncb : ℕ) (hist : List ((algL opt B p lam).σ × Vec D × Fl))
    (w : World (Vec D)) (ht : (algL opt B p lam).Trace env ncb hist w) :
    ∀ r ∈ hist, ∀ e ∈ StL.pop r.1, ∃ l : List Fl, (∀ c ∈ l, c = p.cR ∨ c = p.cA) ∧ e.rho = l.foldr (· * ·) 1 := by
  refine (ht.post (P := fun r => ∀ e ∈ StL.pop r.1, ∃ l : List Fl, (∀ c ∈ l, c = p.cR ∨ c = p.cA) ∧ e.rho = l.foldr (· * ·) 1) (R := fun _ _ => True)
    (fun s b ⟨w, w', hs⟩ _ => fun e he => ⟨[], nofun, post_initL w w' s hs e he⟩) fun r hr => (iterL_kept r.1 r.2.1 r.2.2).mono fun r' h => ⟨fun e he => ?_, trivial⟩).1
  rcases h e he with h1 | ⟨o, ho, -, -, h⟩
  · exact ⟨[], nofun, h1⟩
  · obtain ⟨l, hl, e'⟩ := hr o ho
    rcases h with h | h | h
    · exact ⟨l, hl, h.trans e'⟩
    · exact ⟨p.cR :: l, by simpa using hl, h.trans (congrArg (p.cR * ·) e')⟩
    · exact ⟨p.cA :: l, by simpa using hl, h.trans (congrArg (p.cA * ·) e')⟩

/-- **C91.** In every run of ES(1+1) and ES(mu+1) the step size is changed in every `k`-th iteration and in no other, by the 1/5 rule: if the fitness of the parent
improved in fewer than a fifth of the `k` iterations before (in the first period only `k - 1` have been made) it is multiplied by `c_r`, if in more than
a fifth by `c_a`, and a step size not above `epsilon` is set to 1 instead. -/
theorem C91_1p1_rule (opt : OptType) (B : Box D) (p : Par) (env : Env (Vec D)) (ncb : ℕ) (hist : List ((alg1 opt B p).σ × Vec D × Fl))
    (w : World (Vec D)) (ht : (alg1 opt B p).Trace env ncb hist w) (pre : List ((alg1 opt B p).σ × Vec D × Fl))
    (r' r : (alg1 opt B p).σ × Vec D × Fl) (rest : List ((alg1 opt B p).σ × Vec D × Fl)) (he : hist = pre ++ r' :: r :: rest) :
    let won := successes (((r :: rest).map fun q => (St.c q.1).f).take (p.k + 1))
    (St.c r'.1).rho =
      if (rest.length + 1) % p.k = 0 then
        if Fl.ofNat won / Fl.ofNat p.k < lit 1 5 then (if p.epsilon < (St.c r.1).rho then p.cR * (St.c r.1).rho else 1)
        else if lit 1 5 < Fl.ofNat won / Fl.ofNat p.k then (if p.epsilon < (St.c r.1).rho then p.cA * (St.c r.1).rho else 1)
        else (St.c r.1).rho
      else (St.c r.1).rho := by
  have hcount := fun {hist w} (h : (alg1 opt B p).Trace env ncb hist w) => ((verified1 opt B p).toIf.trace_count env (metBy_none _ _) h).1
  suffices key : (∀ r rest, hist = r :: rest → (St.ki r.1) = successes ((hist.map fun q => (St.c q.1).f).take (rest.length % p.k + 2))) ∧
      ∀ pre r' r rest, hist = pre ++ r' :: r :: rest → (St.c r'.1).rho = if (rest.length + 1) % p.k = 0 then
        updateRho p (St.c r.1).rho (successes (((r :: rest).map fun q => (St.c q.1).f).take (p.k + 1))) else (St.c r.1).rho from
    key.2 pre r' r rest he
  clear he pre r' r rest
  induction ht with
  | @start r w hs =>
    obtain ⟨w1, h1, -⟩ := start_init hs
    have hi : Post env (init opt B) fun s : St D => s.ki = 0 := .bind' .any fun _ _ => .pure' rfl
    refine ⟨fun r' rest h => ?_, fun pre r' r rest h => ?_⟩
    · cases h
      exact hi _ _ _ h1
    · have := congrArg List.length h
      simp at this
      omega
  | @round r r' hist w w' hprev hs hr ih =>
    obtain ⟨w1, w2, h1, h2, -⟩ := round_iter hr
    have hlen := hcount hprev
    have hit : w1.st.iters = hist.length := by rw [h2]; simpa using hlen.symm
    obtain ⟨hk, hki, hrho⟩ := iter_rule (s := r.1) h1
    rw [hit] at hki hrho
    have hold := ih.1 _ _ rfl
    refine ⟨fun a rest h => ?_, fun pre a' a rest h => ?_⟩
    · cases h
      rw [hki]
      simp only [List.map_cons, List.length_cons]
      rw [successes_cons, add_comm]
      congr 1
      rcases next_mod (n := hist.length) hk with ⟨hz, -⟩ | ⟨hz, hm⟩
      · rw [if_pos hz, hz]; rfl
      · rw [if_neg hz, hold, List.map_cons, hm]
    · cases pre with
      | nil =>
        cases h
        rw [hrho]
        rcases next_mod (n := hist.length) hk with ⟨hz, hm⟩ | ⟨hz, -⟩
        · have h1 : p.k - 1 + 2 = p.k + 1 := by omega
          rw [if_pos hz, if_pos hz, hold, hm, h1]
        · rw [if_neg hz, if_neg hz]
      | cons b pre =>
        rw [List.cons_append, List.cons.injEq] at h
        exact ih.2 _ _ _ _ h.2

/-- What one adaptation does to the population: the same to every step size. -/
theorem adaptL_same (p : Par) (n : ℕ) (s : StL D) : ∃ g : Fl → Fl,
    (g = id ∨ (n + 1) % p.k = 0 ∧ ((g = fun x => p.cR * x) ∨ g = fun x => p.cA * x)) ∧
    (adaptL p n s).pop = s.pop.map fun e => { e with rho := g e.rho } := by
  have hid : s.pop = s.pop.map fun e => { e with rho := id e.rho } := (List.map_id' _).symm
  by_cases hz : (n + 1) % p.k = 0
  · rw [adaptL, if_pos hz]
    simp only [updateRhos]
    split
    · exact ⟨fun x => p.cR * x, .inr ⟨hz, .inl rfl⟩, rfl⟩
    · split
      · exact ⟨fun x => p.cA * x, .inr ⟨hz, .inr rfl⟩, rfl⟩
      · exact ⟨id, .inl rfl, hid⟩
  · rw [adaptL, if_neg hz]
    exact ⟨id, .inl rfl, hid⟩

theorem iterL_rule {p : Par} {lam : ℕ} {s : StL D} {xb : Vec D} {fxb : Fl} {w w' : World (Vec D)} {r' : StL D × Vec D × Fl}
    (h : (iterL p lam s xb fxb).run env w = (.ok r', w')) : ∃ g : Fl → Fl,
      (g = id ∨ (w.st.iters + 1) % p.k = 0 ∧ ((g = fun x => p.cR * x) ∨ g = fun x => p.cA * x)) ∧
      ∀ e ∈ r'.1.pop, e.rho = 1 ∨ ∃ o ∈ s.pop, e = { o with rho := g o.rho } := by
  unfold iterL at h
  simp only [Prog.bind_def, Prog.run_bind, Prog.run_look] at h
  by_cases hk : p.k = 0
  · rw [if_pos hk] at h; cases h
  rw [if_neg hk] at h
  obtain ⟨g, hg, hpop⟩ := adaptL_same p w.st.iters s
  refine ⟨g, hg, ?_⟩
  have hfin : ∀ s : StL D, Post env (do
      let cn ← mapM' (List.range lam) fun _ => do
        let y ← mutateRand p.mu s.pop
        newInd y true
      let cn ← sortRecs (fun e : Ind D × Bool => e.1.f) (cn.map (·, false) ++ s.pop.map (·, true))
      let cn := cn.take p.mu
      let ki := s.ki + changeCount s.pop cn
      let l := cn.map (·.1)
      let (xb, fxb) ← Prog.getBest (l.map (·.x)) (l.map (·.f)) xb fxb
      return ((⟨l, ki⟩ : StL D), xb, fxb)) fun r' => ∀ e ∈ r'.1.pop, e.rho = 1 ∨ e ∈ s.pop := by
    intro s
    refine Post.bind' post_offspring fun cn hcn => .bind' (.yields Yields.sortRecs) fun cs hcs => .bind' .any fun b _ => .pure' fun e he => ?_
    obtain ⟨⟨e', t⟩, he', rfl⟩ := List.mem_map.1 he
    rcases List.mem_append.1 (hcs.1.mem_iff.1 (List.mem_of_mem_take he')) with h | h
    · obtain ⟨a, ha, h⟩ := List.mem_map.1 h
      cases h
      exact .inl (hcn _ ha)
    · obtain ⟨a, ha, h⟩ := List.mem_map.1 h
      cases h
      exact .inr ha
  intro e he
  refine (hfin _ _ _ _ h e he).imp_right fun h => ?_
  rw [hpop] at h
  obtain ⟨o, ho, h⟩ := List.mem_map.1 h
  exact ⟨o, ho, h.symm⟩

/-- **C91.** In ES(mu+lambda) the step sizes of the individuals kept are changed in every `k`-th iteration at most, and then all in the same way. -/
theorem C91_mpl_rule_partial (opt : OptType) (B : Box D) (p : Par) (lam : ℕ) (env : Env (Vec D)) (ncb : ℕ) (hist : List ((algL opt B p lam).σ × Vec D × Fl))
    (w : World (Vec D)) (ht : (algL opt B p lam).Trace env ncb hist w) (pre : List ((algL opt B p lam).σ × Vec D × Fl))
    (r' r : (algL opt B p lam).σ × Vec D × Fl) (rest : List ((algL opt B p lam).σ × Vec D × Fl)) (he : hist = pre ++ r' :: r :: rest) : ∃ g : Fl → Fl,
      (g = id ∨ (rest.length + 1) % p.k = 0 ∧ ((g = fun x => p.cR * x) ∨ g = fun x => p.cA * x)) ∧
      ∀ e ∈ StL.pop r'.1, e.rho = 1 ∨ ∃ o ∈ StL.pop r.1, e = { o with rho := g o.rho } := by
  induction ht generalizing pre with
  | start hs =>
    have := congrArg List.length he
    simp at this
    omega
  | @round q q' hist w w' hprev hs hr ih =>
    cases pre with
    | nil =>
      cases he
      obtain ⟨w1, w2, h1, h2, -⟩ := round_iter hr
      have hlen := ((verifiedL opt B p lam).toIf.trace_count env (metBy_none _ _) hprev).1
      have hit : w1.st.iters = rest.length := by rw [h2]; simpa using hlen.symm
      have := iterL_rule (s := r.1) h1
      rwa [hit] at this
    | cons b pre =>
      rw [List.cons_append, List.cons.injEq] at he
      exact ih _ he.2

end

/-- Step sizes of ES(1+1) other than 1 do occur. -/
example : letI := NiaPy.Ex.arith
    (match ((alg1 .minimization (NiaPy.Ex.box 2) ⟨2, 2, .fin (11 / 10), .fin (1 / 2), .fin 0⟩).execBody (NiaPy.Ex.env2 (D := 2) 5) 0 8).1 with
      | .ok r => decide ((St.c r.1).rho ≠ 1)
      | _ => false) = true := by decide +kernel

example : (@alg1 Ex.arith 2 .minimization (Ex.box 2) ⟨2, 2, .fin (11 / 10), .fin (1 / 2), .fin 0⟩).okIters Ex.env2 1 5 = some 2 := by
  decide +kernel
example : (@algL Ex.arith 2 .minimization (Ex.box 2) ⟨2, 2, .fin (11 / 10), .fin (1 / 2), .fin 0⟩ 3).okIters Ex.env2 1 5 = some 2 := by
  decide +kernel
example : (@algM Ex.arith 2 .minimization (Ex.box 2) 2 3).okIters Ex.env2 1 5 = some 2 := by decide +kernel
example : (@algM Ex.arith 2 .minimization (Ex.box 2) 3 2).okIters Ex.env2 1 5 = some 2 := by decide +kernel

/-- The hypotheses of the C91 theorems are satisfiable. -/
example : letI := NiaPy.Ex.arith; ∃ hist w, (algM .minimization (NiaPy.Ex.box 2) 2 3).Trace (NiaPy.Ex.env2 (D := 2)) 1 hist w ∧ hist.length = 3 :=
  letI := NiaPy.Ex.arith; (verifiedM .minimization (NiaPy.Ex.box 2) 2 3).toIf.exists_trace NiaPy.Ex.env2 (metBy_none _ _) (fuel := 5) (by decide +kernel)
example : letI := NiaPy.Ex.arith; ∃ hist w,
    (algL .minimization (NiaPy.Ex.box 2) ⟨2, 2, .fin (11 / 10), .fin (1 / 2), .fin 0⟩ 3).Trace (NiaPy.Ex.env2 (D := 2)) 1 hist w ∧ hist.length = 3 :=
  letI := NiaPy.Ex.arith; (verifiedL .minimization (NiaPy.Ex.box 2) _ 3).toIf.exists_trace NiaPy.Ex.env2 (metBy_none _ _) (fuel := 5) (by decide +kernel)

/-- In ES(mu+lambda) step sizes other than 1 do occur: those of adapted individuals that are kept. -/
example : letI := NiaPy.Ex.arith
    (match ((algL .minimization (NiaPy.Ex.box 2) ⟨2, 2, .fin (11 / 10), .fin (1 / 2), .fin 0⟩ 1).execBody (NiaPy.Ex.env2 (D := 2) 2) 0 5).1 with
      | .ok r => (StL.pop r.1).any fun e => decide (e.rho ≠ 1)
      | _ => false) = true := by decide +kernel

end NiaPy.ES
