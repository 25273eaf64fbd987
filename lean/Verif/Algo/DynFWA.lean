import Verif.Algo.FWA
import Verif.Algo.DE

/-! # Dynamic fireworks algorithms

Model of `/repo/src/niapy/algorithms/basic/fwa.py:614-927`: DynamicFireworksAlgorithmGauss and DynamicFireworksAlgorithm. The core
firework is `best_x`; `update_cf` sets it to `population[0]`, a view of the first row of the population, and the selection of the next
iteration writes to that row. -/

namespace NiaPy.FWA

variable [Arith] {D N : ℕ}

/-- State between iterations: population and fitness, `amplitude_cf`, and whether `best_x` is (a view of) `population[0]`. -/
structure DynSt (D N : ℕ) where
  pop : Fin N → Vec D
  fit : Fin N → Fl
  amp : Vec D
  shared : Bool

/-- `init_population` (fwa.py:735-751). -/
def initD (B : Box D) (N : ℕ) : Prog (Vec D) (DynSt D N) := do
  let (pop, fit) ← defaultNumpyInit B N
  return ⟨pop, fit, fun j => B.hi j - B.lo j, false⟩

/-- The number of sparks of the core firework (fwa.py:790-798, 898-906). `round` of a NumPy float gives an `int`. -/
def coreNum (p : Par) (fit : Fin N → Fl) (fxb : Fl) : Prog (Vec D) ℤ := do
  let iw ← argmaxIdx fit
  let id ← argmaxIdx fun i => fit i - fxb
  let n := Fl.ofNat p.num * (fit iw - fxb + eps) / (fit id - fxb + eps)
  let r ← Prog.ofExcept (DE.pyRound (
    if n < p.a * Fl.ofNat p.num then p.a * Fl.ofNat p.num
    else if p.b * Fl.ofNat p.num < n ∧ p.a < p.b ∧ p.b < 1 then p.b * Fl.ofNat p.num
    else n))
  return toInt r

/-- The sparks of the core firework (fwa.py:819-822, 919-922); `np.empty` raises for a negative number. -/
def coreSparks (B : Box D) (n : ℤ) (xb amp : Vec D) : Prog (Vec D) (List (Vec D)) :=
  if n < 0 then .throw .valueError
  else mapM' (List.replicate n.toNat xb) fun x => do
    let y ← explodeE amp x
    mapRand B y

/-- `selection` (fwa.py:753-762). -/
def selectionD (pop : Fin N → Vec D) (fit : Fin N → Fl) (sparks : List (Vec D)) : Prog (Vec D) ((Vec D × Fl) × (Fin N → Vec D × Fl)) := do
  let r ← evalRecs sparks
  let b ← argminRec (·.2) r
  let new ← tabM N fun i => do
    let k ← intFin r.length
    return if (r.get k).2 < fit i then r.get k else (pop i, fit i)
  return (b, fun i => if i.val = 0 then b else new i)

/-- What `update_cf` returns, and whether `best_x` is `population[0]`. -/
structure Core (D : ℕ) where
  x : Vec D
  f : Fl
  amp : Vec D
  shared : Bool

/-- `update_cf` (fwa.py:702-729) after evaluating the sparks of the core firework, the best of which is `c`; `cb` is `population[0]`
with its fitness. -/
def updateCf (up down : Fl) (c cb : Vec D × Fl) (k : Core D) : Core D :=
  let k := if c.2 ≤ k.f then { k with x := c.1, f := c.2, shared := false } else k
  if cb.2 ≤ k.f then ⟨cb.1, cb.2, fun j => k.amp j * up, true⟩ else { k with amp := fun j => k.amp j * down }

/-- The gaussian sparks (fwa.py:811-817), if there are any. -/
def someGauss (B : Box D) (m : Option ℕ) (xb : Vec D) (l : List (Vec D)) : Prog (Vec D) (List (Vec D)) :=
  match m with
  | some m => addGauss (fun x => do let y ← gaussianE xb x; mapRand B y) m l
  | none => return l

/-- `run_iteration` (fwa.py:764-826 with, 873-927 without gaussian sparks: `gauss`). If `best_x` is `population[0]`, the selection has
changed it by the time of `update_cf`. -/
def iterD (B : Box D) (p : Par) (gauss : Bool) (up down : Fl) (s : DynSt D N) (xb : Vec D) (fxb : Fl) : Prog (Vec D) (DynSt D N × Vec D × Fl) := do
  let n ← sparksNum p s.fit
  let amp ← amplitudes p s.fit
  let m ← coreNum p s.fit fxb
  let l ← explosions (fun i x => do let y ← explodeE (fun _ => amp i) x; mapRand B y) n s.pop
  let l ← someGauss B (if gauss then some p.gauss else none) xb l
  let cf ← coreSparks B m xb s.amp
  let (cb, new) ← selectionD s.pop s.fit l
  let r ← evalRecs cf
  let c ← argminRec (·.2) r
  let k := updateCf up down c cb ⟨if s.shared then cb.1 else xb, fxb, s.amp, s.shared⟩
  return (⟨fun i => (new i).1, fun i => (new i).2, k.amp, k.shared⟩, k.x, k.f)

/-- DynamicFireworksAlgorithmGauss (`gauss`) and DynamicFireworksAlgorithm (not `gauss`). -/
def algD (B : Box D) (N : ℕ) (p : Par) (gauss : Bool) (up down : Fl) : Alg (Vec D) where
  σ := DynSt D N
  init := initD B N
  pop s := List.ofFn s.pop
  fit s := List.ofFn s.fit
  iter := iterD B p gauss up down

/-! ### Obligations -/

variable {B : Box D} {C : Ctx (Vec D)} {g : Ghost (Vec D)} {p : Par} {gauss : Bool} {up down : Fl}

/-- Fitness values are not tied to solutions, and points within the bounds may be evaluated. -/
def LooseInside (B : Box D) (C : Ctx (Vec D)) : Prop := Untied C ∧ ∀ x, B.NotOut x → C.G x

theorem coreNum_quiet (fit : Fin N → Fl) (fxb : Fl) : Quiet C (coreNum p fit fxb : Prog (Vec D) ℤ) := by
  unfold coreNum
  refine .bind' (P := fun _ => True) ⟨fun g => wp_argmaxIdx fun i _ => ⟨trivial, rfl⟩⟩ fun iw (_ : True) =>
    .bind' (P := fun _ => True) ⟨fun g => wp_argmaxIdx fun i _ => ⟨trivial, rfl⟩⟩ fun id (_ : True) => .bind' (P := fun _ => True) ⟨fun g => ?_⟩ fun r _ => .pure' trivial
  rw [Prog.wp_ofExcept]
  refine ⟨fun _ _ => ⟨trivial, rfl⟩, fun h => ?_⟩
  unfold DE.pyRound at h
  split at h <;> cases h

theorem coreSparks_yields (hG : ∀ x, B.NotOut x → C.G x) (n : ℤ) (xb amp : Vec D) : Yields C (coreSparks B n xb amp) fun l => ∀ x ∈ l, C.G x := by
  unfold coreSparks
  exact .ite (fun _ => .throw nofun) fun _ => (Yields.mapMAll fun x _ => .bind' (explodeE_quiet _ x) fun y _ => mapRand_yields B hG y).mono fun _ h => h.1

/-- `update_cf` returns a value at least as good as the three it is given, and one of them. -/
theorem updateCf_val (c cb : Vec D × Fl) (k : Core D) :
    ((updateCf up down c cb k).f = c.2 ∨ (updateCf up down c cb k).f = cb.2 ∨ (updateCf up down c cb k).f = k.f) ∧
    (c.2 ≠ .nan → cb.2 ≠ .nan → k.f ≠ .nan →
      (updateCf up down c cb k).f ≤ c.2 ∧ (updateCf up down c cb k).f ≤ cb.2 ∧ (updateCf up down c cb k).f ≤ k.f) := by
  unfold updateCf
  dsimp only
  by_cases h1 : c.2 ≤ k.f
  · rw [if_pos h1]
    by_cases h2 : cb.2 ≤ c.2
    · rw [if_pos h2]
      exact ⟨.inr (.inl rfl), fun a b d => ⟨h2, Fl.le_refl b, Fl.le_trans h2 h1⟩⟩
    · rw [if_neg h2]
      exact ⟨.inl rfl, fun a b d => ⟨Fl.le_refl a, Fl.le_of_lt (Fl.lt_of_not_le b a h2), h1⟩⟩
  · rw [if_neg h1]
    by_cases h2 : cb.2 ≤ k.f
    · rw [if_pos h2]
      exact ⟨.inr (.inl rfl), fun a b d => ⟨Fl.le_trans h2 (Fl.le_of_lt (Fl.lt_of_not_le a d h1)), Fl.le_refl b, h2⟩⟩
    · rw [if_neg h2]
      exact ⟨.inr (.inr rfl), fun a b d => ⟨Fl.le_of_lt (Fl.lt_of_not_le a d h1), Fl.le_of_lt (Fl.lt_of_not_le b d h2), Fl.le_refl d⟩⟩

/-- The obligations of the dynamic fireworks algorithms. -/
theorem verifiedD (B : Box D) (N : ℕ) (p : Par) (gauss : Bool) (up down : Fl) :
    VerifiedIf (LooseInside B) (algD B N p gauss up down) B.Mem true true ⟨N, N + (if gauss then p.gauss else 0) + 1, none⟩ := by
  refine ⟨fun C (s : DynSt D N) b => ∀ i, C.Fit b (s.pop i) (s.fit i) ∧ C.G (s.pop i), fun C hC hG _ _ =>
    AlgOK.toW ⟨fun s b h => forall₂_ofFn fun i => (h i).1, fun g hg => ?_, ?_⟩⟩
  · simp only [algD, initD, Prog.wp_bind']
    exact wp_initArr hG hg fun r g' _ h2 h3 h4 h5 => ⟨fun i => ⟨h3 i, hG _ (h2 i)⟩, h4, h5⟩
  · intro s xb fxb g hI hF hc
    have hinc : Inc C xb fxb g := ⟨hF, hc⟩
    simp only [algD, iterD, selectionD, Prog.wp_bind']
    refine (sparksNum_quiet ..).wp fun n _ => (amplitudes_quiet ..).wp fun amp _ => (coreNum_quiet ..).wp fun m _ => ?_
    refine (explosions_yields (fun i x => .bind' (explodeE_quiet _ x) fun y _ => mapRand_yields B hC.2 y) n fun i => (hI i).2).wp fun l hl => ?_
    have hadd : Yields C (someGauss B (if gauss then some p.gauss else none) xb l) (Sparks C (N + if gauss then p.gauss else 0)) := by
      cases gauss
      · exact .pure' hl
      · exact addGauss_yields (fun x => .bind' (gaussianE_quiet xb x) fun y _ => mapRand_yields B hC.2 y) p.gauss N hl
    refine hadd.wp fun l hl => (coreSparks_yields hC.2 m xb s.amp).wp fun cf hcf => ?_
    refine wp_evalRecs hl.1 hinc.cov fun r g1 _ hb1 hr hcov hmap hcnt => wp_argminRec fun b hb hmin => ?_
    have hrG : ∀ e ∈ r, C.Fit g1.b e.1 e.2 ∧ C.G e.1 := fun e he => ⟨hr e he, hl.1 _ (hmap ▸ List.mem_map_of_mem he)⟩
    refine (Yields.tabM (P := fun _ (e : Vec D × Fl) => C.Fit g1.b e.1 e.2 ∧ C.G e.1) fun i => .bind' Yields.intFin fun k _ => .pure' ?_).wp fun new hnew => ?_
    · split
      · exact hrG _ (List.get_mem ..)
      · exact ⟨(hI i).1.mono hb1, (hI i).2⟩
    refine wp_evalRecs hcf hcov fun r' g2 hpos hb2 hr' hcov' _ hcnt' => wp_argminRec fun c hc' hmin' => ?_
    have hval := updateCf_val (up := up) (down := down) c b ⟨if s.shared then b.1 else xb, fxb, s.amp, s.shared⟩
    set k := updateCf up down c b ⟨if s.shared then b.1 else xb, fxb, s.amp, s.shared⟩ with hk
    have hfit : C.Fit g2.b k.x k.f := by
      rcases hval.1 with h | h | h <;> rw [h]
      · exact ⟨hC.1 _ _ _ (hr' c hc').1, (hr' c hc').2⟩
      · have := (hr b hb).mono hb2
        exact ⟨hC.1 _ _ _ this.1, this.2⟩
      · have := (hinc.toFit.mono hb1).mono hb2
        exact ⟨hC.1 _ _ _ this.1, this.2⟩
    have hinc' : Inc C k.x k.f g2 := .of_cov hfit (hcov'.weaken fun hn u hu hne => ⟨_, rfl, by
      have hle := hval.2 (hn _ _ (hr' c hc').1) (hn _ _ (hr b hb).1) (hn _ _ hF)
      rcases hu with (rfl | ⟨e, he, rfl⟩) | ⟨e, he, rfl⟩
      · exact hle.2.2
      · exact Fl.le_trans hle.2.1 (hmin (fun e he => hn _ _ (hr e he).1) e he)
      · exact Fl.le_trans hle.1 (hmin' (fun e he => hn _ _ (hr' e he).1) e he)⟩)
    refine ⟨fun i => ?_, hinc'.fit, hinc'.eq, ?_, nofun⟩
    · dsimp only
      split
      · exact ⟨(hrG b hb).1.mono hb2, (hrG b hb).2⟩
      · exact ⟨(hnew i).1.mono hb2, (hnew i).2⟩
    · have := hl.2
      change g.c + (N + (if gauss then p.gauss else 0) + 1) ≤ g2.c
      omega

/-! ### C78: the solution returned -/

section
variable {env : Env (Vec D)} {ψ : Vec D → Fl}

/-- `v` is the value of the objective (as the algorithm sees it) at `x`, or that of an evaluation after the task has stopped. -/
def Val (ψ : Vec D → Fl) (x : Vec D) (v : Fl) : Prop := v = ψ x ∨ v = .pinf

/-- The objective gives the same value whenever it is called with the same solution. -/
def Steady (env : Env (Vec D)) (ψ : Vec D → Fl) : Prop := ∀ k x r, env.obj k x = .ok r → env.opt.mul r = ψ x

omit [Arith] in
theorem Steady.val (h : Steady env ψ) {x : Vec D} {v : Fl} (hv : Possible env x v) : Val ψ x v := by
  rcases hv with rfl | ⟨k, r, hr, rfl⟩
  · exact .inr rfl
  · exact .inl (h k x r hr)

omit [Arith] in
theorem run_bind_ok {α β : Type} {q : Prog (Vec D) α} {f : α → Prog (Vec D) β} {w w' : World (Vec D)} {b : β}
    (h : (q.bind f).run env w = (.ok b, w')) : ∃ a w1, q.run env w = (.ok a, w1) ∧ (f a).run env w1 = (.ok b, w') := by
  rw [Prog.run_bind] at h
  rcases hq : q.run env w with ⟨e | a, w1⟩
  · rw [hq] at h; cases h
  · rw [hq] at h; exact ⟨a, w1, rfl, h⟩

/-- Evaluate and keep the point. -/
def both (x : Vec D) : Prog (Vec D) (Vec D × Fl) := do
  let v ← Prog.eval x
  return (x, v)

omit [Arith] in
/-- An evaluation gives the value of the objective, or the task has stopped (before and hence afterwards). -/
theorem both_run (hψ : Steady env ψ) {x : Vec D} {w w' : World (Vec D)} {e : Vec D × Fl} (h : (both x).run env w = (.ok e, w')) :
    e.1 = x ∧ (stoppingCondition env.toTaskCfg w.st = false ∧ e.2 = ψ x ∨
      e.2 = .pinf ∧ stoppingCondition env.toTaskCfg w.st = true ∧ stoppingCondition env.toTaskCfg w'.st = true) := by
  obtain ⟨v, w1, h1, h2⟩ := run_bind_ok h
  cases h2
  refine ⟨rfl, ?_⟩
  rw [Prog.run_eval] at h1
  rcases evalTask_cases env.toTaskCfg w.st x with ⟨h0, h3⟩ | ⟨h0, e, -, h3⟩ | ⟨h0, r, hr, h3⟩
  · rw [h3] at h1; cases h1; exact .inr ⟨rfl, h0, h0⟩
  · rw [h3] at h1; cases h1
  · rw [h3] at h1; cases h1; exact .inl ⟨h0, hψ _ _ _ hr⟩

omit [Arith] in
/-- After the task has stopped, evaluations give `+inf`. -/
theorem evals_run (hψ : Steady env ψ) {l : List (Vec D)} {w w' : World (Vec D)} {r : List (Vec D × Fl)}
    (h : (mapM' l both).run env w = (.ok r, w')) :
    (∀ e ∈ r, Val ψ e.1 e.2) ∧ (stoppingCondition env.toTaskCfg w.st = true → ∀ e ∈ r, e.2 = .pinf) := by
  induction l generalizing w r with
  | nil => cases h; exact ⟨nofun, nofun⟩
  | cons x l ih =>
    obtain ⟨a, w1, h1, h2⟩ := run_bind_ok h
    obtain ⟨t, w2, h3, h4⟩ := run_bind_ok h2
    cases h4
    obtain ⟨rfl, hv⟩ := both_run hψ h1
    have ht := ih h3
    refine ⟨fun e he => ?_, fun hs e he => ?_⟩
    · rcases List.mem_cons.1 he with rfl | he
      · rcases hv with ⟨-, hv⟩ | ⟨hv, -⟩
        · exact .inl hv
        · exact .inr hv
      · exact ht.1 e he
    · rcases hv with ⟨h0, -⟩ | ⟨hv, -, h0⟩
      · rw [hs] at h0; cases h0
      · rcases List.mem_cons.1 he with rfl | he
        · exact hv
        · exact ht.2 h0 e he

omit [Arith] in
/-- The first of a list of evaluations gives the value of the objective, unless all of them give `+inf`. -/
theorem post_evalRecs (hψ : Steady env ψ) {l : List (Vec D)} : Post env (evalRecs l) fun r =>
    (∀ e ∈ r, Val ψ e.1 e.2) ∧ ∀ x ∈ l.head?, ∃ v t, r = (x, v) :: t ∧ (v = ψ x ∨ ∀ e ∈ r, e.2 = .pinf) := by
  intro w w' r h
  cases l with
  | nil => cases h
  | cons x l =>
    have h : (mapM' (x :: l) both).run env w = (.ok r, w') := h
    refine ⟨(evals_run hψ h).1, fun y hy => ?_⟩
    cases hy
    obtain ⟨a, w1, h1, h2⟩ := run_bind_ok h
    obtain ⟨t, w2, h3, h4⟩ := run_bind_ok h2
    cases h4
    obtain ⟨h5, hv⟩ := both_run hψ h1
    refine ⟨a.2, t, by rw [← h5], ?_⟩
    rcases hv with ⟨-, hv⟩ | ⟨-, h0, -⟩
    · exact .inl hv
    · exact .inr ((evals_run hψ h).2 h0)

omit [Arith] in
/-- `argmin` of equal values is the first index. -/
theorem post_argmin {e : Vec D × Fl} {t : List (Vec D × Fl)} : Post env (argminRec (·.2) (e :: t)) fun b =>
    b ∈ e :: t ∧ ((∀ a ∈ e :: t, a.2 ≠ .nan) → ∀ a ∈ e :: t, b.2 ≤ a.2) ∧ ((∀ a ∈ e :: t, a.2 = .pinf) → b = e) := by
  have h1 : Post env (argminRec (·.2) (e :: t)) fun b => b ∈ e :: t ∧ ((∀ a ∈ e :: t, a.2 ≠ .nan) → ∀ a ∈ e :: t, b.2 ≤ a.2) :=
    .yields ⟨fun g => wp_argminRec fun a h1 h2 => ⟨⟨h1, h2⟩, rfl⟩⟩
  intro w w' b h
  obtain ⟨h2, h3⟩ := h1 w w' b h
  refine ⟨h2, h3, fun hinf => ?_⟩
  obtain ⟨k, m, hk, hm, -, hf⟩ := argmin_spec ((e :: t).map (·.2)) (by simp) fun v hv => by
    obtain ⟨a, ha, rfl⟩ := List.mem_map.1 hv
    rw [hinf a ha]; nofun
  have hk0 : k = 0 := by
    by_contra hne
    have := hf 0 (by omega) e.2 rfl
    obtain ⟨a, ha, rfl⟩ := List.mem_map.1 (List.mem_of_getElem? hm)
    rw [hinf a ha, hinf e (by simp)] at this
    exact absurd this (by decide)
  unfold argminRec at h
  rw [hk, hk0] at h
  cases h
  rfl

theorem post_explosions' {expl : Fin N → Vec D → Prog (Vec D) (Vec D)} {n : Fin N → ℤ} {pop : Fin N → Vec D} :
    Post env (explosions expl n pop) fun l => ∃ t, l = List.ofFn pop ++ t := by
  unfold explosions
  split
  · exact fun _ _ _ h => by cases h
  · exact .bind' .any fun t _ => .pure' ⟨t, rfl⟩

theorem post_someGauss {m : Option ℕ} {xb : Vec D} {l : List (Vec D)} : Post env (someGauss B m xb l) fun l' => ∃ t, l' = l ++ t := by
  unfold someGauss
  split
  · exact .bind' .any fun _ _ => .bind' .any fun t _ => .pure' ⟨t, rfl⟩
  · exact .pure' ⟨[], by simp⟩

/-- What holds at the head of the loop: the value kept is that of the solution kept, and if the latter is a view of the first row of the
population, it equals that row. -/
def Tied (ψ : Vec D → Fl) (r : DynSt D N × Vec D × Fl) : Prop :=
  Val ψ r.2.1 r.2.2 ∧ (r.1.shared = true → ∀ h : 0 < N, r.2.1 = r.1.pop ⟨0, h⟩)

omit [Arith] in
theorem Val.ne_nan (hn : ∀ x, ψ x ≠ .nan) {x : Vec D} {v : Fl} (h : Val ψ x v) : v ≠ .nan := by
  rcases h with rfl | rfl
  · exact hn x
  · nofun

omit [Arith] in
/-- The best spark is at least as good as the first spark, or (if the task has stopped) is the first spark. -/
theorem post_selectionD (hψ : Steady env ψ) (hn : ∀ x, ψ x ≠ .nan) {pop : Fin N → Vec D} {fit : Fin N → Fl} {l : List (Vec D)} :
    Post env (selectionD pop fit l) fun r => Val ψ r.1.1 r.1.2 ∧ (∀ h : 0 < N, r.2 ⟨0, h⟩ = r.1) ∧
      ∀ x ∈ l.head?, r.1.2 ≤ ψ x ∨ r.1.1 = x := by
  unfold selectionD
  refine .bind' (post_evalRecs hψ) fun r hr => ?_
  cases r with
  | nil => exact .bind (P := fun _ => False) (fun _ _ _ h => by cases h) fun _ h => h.elim
  | cons e t =>
    refine .bind' post_argmin fun b hb => .bind' .any fun new _ => .pure' ⟨hr.1 b hb.1, fun h => by simp, fun x hx => ?_⟩
    obtain ⟨v, t', he, hv⟩ := hr.2 x hx
    rw [List.cons.injEq] at he
    obtain ⟨rfl, rfl⟩ := he
    rcases hv with rfl | hv
    · exact .inl (hb.2.1 (fun a ha => (hr.1 a ha).ne_nan hn) _ List.mem_cons_self)
    · exact .inr (congrArg Prod.fst (hb.2.2 hv))

theorem tied_iter (hψ : Steady env ψ) (hn : ∀ x, ψ x ≠ .nan) {s : DynSt D N} {xb : Vec D} {fxb : Fl} (h : Tied ψ (s, xb, fxb)) :
    Post env (iterD B p gauss up down s xb fxb) (Tied ψ) := by
  unfold iterD
  have hpos : Post env (sparksNum p s.fit : Prog (Vec D) _) fun _ => 0 < N :=
    .bind' (P := fun i : Fin N => 0 < N) (.yields ⟨fun g => wp_argmaxIdx fun i _ => ⟨by have := i.2; omega, rfl⟩⟩) fun _ h => .pure' h
  refine .bind' hpos fun n hN => .bind' .any fun amp _ => .bind' .any fun m _ => .bind' post_explosions' fun l hl =>
    .bind' post_someGauss fun l' hl' => .bind' .any fun cf _ => .bind' (post_selectionD hψ hn) fun a ha =>
    .bind' (post_evalRecs hψ) fun r hr => ?_
  have hx : s.pop ⟨0, hN⟩ ∈ l'.head? := by
    obtain ⟨t, rfl⟩ := hl
    obtain ⟨t', rfl⟩ := hl'
    obtain ⟨n, rfl⟩ : ∃ n, N = n + 1 := ⟨N - 1, by omega⟩
    simp [List.ofFn_succ]
  have hc : Post env (argminRec (·.2) r) fun c => Val ψ c.1 c.2 := .mono (.yields ⟨fun g => wp_argminRec fun a h _ => ⟨h, rfl⟩⟩) hr.1
  refine .bind' hc fun c hc => .pure' ?_
  obtain ⟨cb, new⟩ := a
  obtain ⟨ha1, ha2, ha3⟩ := ha
  dsimp only at ha1 ha2 ha3 ⊢
  specialize ha3 _ hx
  unfold updateCf
  dsimp only
  by_cases h1 : c.2 ≤ fxb
  · rw [if_pos h1]
    by_cases h2 : cb.2 ≤ c.2
    · rw [if_pos h2]; exact ⟨ha1, fun _ h => by dsimp only; rw [ha2 h]⟩
    · rw [if_neg h2]; exact ⟨hc, nofun⟩
  · rw [if_neg h1]
    by_cases h2 : cb.2 ≤ fxb
    · rw [if_pos h2]; exact ⟨ha1, fun _ h => by dsimp only; rw [ha2 h]⟩
    · rw [if_neg h2]
      cases hs : s.shared with
      | false => exact ⟨by simpa using h.1, nofun⟩
      | true =>
        have hxb : xb = s.pop ⟨0, hN⟩ := h.2 hs hN
        refine ⟨?_, fun _ h => by dsimp only; rw [ha2 h]; rfl⟩
        change Val ψ cb.1 fxb
        rcases h.1 with h3 | h3
        · rcases ha3 with h4 | h4
          · refine absurd ?_ h2
            dsimp only at h3
            rw [h3, hxb]; exact h4
          · rw [h4, ← hxb]; exact .inl h3
        · exact .inr h3

/-- **C78.** If the objective is a function without NaN values, the dynamic fireworks algorithms return a solution with its own objective
value, or (if nothing finite was seen) an infinite value. -/
theorem C78_solution (B : Box D) (N : ℕ) (p : Par) (gauss : Bool) (up down : Fl) (env : Env (Vec D)) (φ : Vec D → Fl)
    (hφ : ∀ k x r, env.obj k x = .ok r → r = φ x) (hn : ∀ x, φ x ≠ .nan) (main : Bool) (ncb fuel : ℕ) (out : RunOut (Vec D)) (x : Vec D) (f : Fl)
    (hrun : ((algD B N p gauss up down).exec env main ncb fuel).1 = .ok out) (hres : out.result = some (x, f)) :
    f = φ x ∨ f = env.opt.mul .pinf := by
  have hψ : Steady env fun x => env.opt.mul (φ x) := fun k x r h => by rw [hφ k x r h]
  have hn' : ∀ x, env.opt.mul (φ x) ≠ .nan := fun x h => hn x (by
    have := congrArg env.opt.mul h
    rw [OptType.mul_mul] at this
    rw [this]; cases env.opt <;> rfl)
  rw [exec_eq] at hrun
  simp only at hrun
  split at hrun
  · rename_i r hr
    cases hrun
    cases hres
    obtain ⟨hist, w, ht, -⟩ := body_trace hr
    have := (ht.post (P := Tied fun x => env.opt.mul (φ x)) (R := fun _ _ => True) (fun s b hs hb => ?_)
      fun r hr => (tied_iter hψ hn' hr).mono fun _ h => ⟨h, trivial⟩).1 r (by simp)
    · rcases this.1 with h | h <;> rw [h]
      · exact .inl (OptType.mul_mul _ _)
      · exact .inr rfl
    · obtain ⟨w, w', hw⟩ := hs
      have hp : Post env (initD B N) fun s => s.shared = false ∧ ∀ i, Val (fun x => env.opt.mul (φ x)) (s.pop i) (s.fit i) := by
        refine Post.bind' (P := fun r => ∀ i, Val (fun x => env.opt.mul (φ x)) (r.1 i) (r.2 i)) ?_ fun r hr => .pure' ⟨rfl, hr⟩
        refine .bind' .any fun pop _ => ?_
        split
        · intro w w' a ha; cases ha
        · exact .bind' (Post.tabM (P := fun i v => Val (fun x => env.opt.mul (φ x)) (pop i) v) fun i => .eval fun v hv => hψ.val hv) fun r hr => .pure' hr
      obtain ⟨h1, h2⟩ := hp w w' s hw
      refine ⟨?_, fun h => ?_⟩
      · exact getBest_aligned (F := Val fun x => env.opt.mul (φ x)) (forall₂_ofFn h2) (fun _ h => by cases h) hb
      · rw [h1] at h; cases h
  · split at hrun
    · cases hrun
    · cases hrun; cases hres

end

namespace Ex
open NiaPy.Ex

def parD : Par := ⟨4, .fin (1 / 2), .fin (4 / 5), .fin 1, 1⟩

/-- A noisy objective: the value depends on the number of the call. -/
def noisy : Env (Vec 1) :=
  NiaPy.Ex.env (fun k _ => .ok (if k = 0 then .fin 5 else if k = 1 then .fin 3 else if k = 2 then .fin 6 else if k = 3 then .fin 2 else .fin (100 - k)))
    .minimization none (some 2) none NiaPy.Ex.draws fun _ _ x i => clip1 (x i)

end Ex

omit [Arith] in
/-- C78 needs an objective that is a function: otherwise the solution returned may have been overwritten after its value was recorded. -/
theorem C78_noisy_false : (@algD NiaPy.Ex.arith 1 (NiaPy.Ex.box 1) 3 Ex.parD false (.fin (6 / 5)) (.fin (9 / 10))).ReturnsWrong Ex.noisy :=
  .of (fuel := 5) (by decide +kernel)

/-- The hypotheses of `C78_solution` are satisfiable: a run of two iterations with all kinds of sparks in two dimensions, in which the core firework has
become a view of the population. -/
example : letI := NiaPy.Ex.arith
    (∃ φ : Vec 2 → Fl, (∀ k x r, (NiaPy.Ex.env2 (D := 2)).obj k x = .ok r → r = φ x) ∧ ∀ x, φ x ≠ .nan) ∧
    (match (algD (NiaPy.Ex.box 2) 3 Ex.parD true (.fin (6 / 5)) (.fin (9 / 10))).exec NiaPy.Ex.env2 true 1 5 with
      | (.ok ⟨some (_, f), _⟩, w) => decide (f ≠ .pinf ∧ w.st.iters = 2 ∧ 20 < w.calls.length ∧ w.events.length = 6)
      | _ => false) = true :=
  letI := NiaPy.Ex.arith
  ⟨⟨fun x => match NiaPy.Ex.sphere 0 x with | .ok r => r | .error _ => 0, fun k x r h => by
      have h' : NiaPy.Ex.sphere 0 x = .ok r := h
      simp only [h'], fun x => by
      cases h : NiaPy.Ex.sphere 0 x with
      | error e => simp only [h]; exact Fl.noConfusion
      | ok r => simp only [h]; exact NiaPy.Ex.env2_noNaN (D := 2) 2 none 0 x r h⟩, by decide +kernel⟩

end NiaPy.FWA
