import Verif.Post
import Mathlib.Tactic.Ring
import Mathlib.Tactic.FieldSimp
import Mathlib.Tactic.Positivity
import Mathlib.Tactic.Linarith
import Verif.PopTools
import Verif.Runs

/-!
# Fish school search (algorithms/basic/fss.py)
-/

namespace NiaPy.FSS
variable [Arith] {D N : ℕ}

/-- Parameters (fss.py:92-115). -/
structure Par where
  stepIndInit : Fl
  stepIndFinal : Fl
  stepVolInit : Fl
  stepVolFinal : Fl
  minW : Fl
  wScale : Fl

/-- `Fish` (fss.py:13-36). -/
structure Fish (D : ℕ) where
  x : Vec D
  f : Fl
  weight : Fl
  dPos : Vec D
  dCost : Fl

/-- State of a run: the school and the additional parameters (fss.py:305-307). -/
structure St (D N : ℕ) where
  school : Fin N → Fish D
  stepInd : Vec D
  stepVol : Vec D
  weight : Fl

/-- `init_population` (fss.py:288-307) with `init_school` (163-169). -/
def init (opt : OptType) (B : Box D) (N : ℕ) (p : Par) : Prog (Vec D) (St D N) := do
  let pop ← defaultIndividualInit opt B N
  return ⟨fun i => ⟨(pop i).x, (pop i).f, p.wScale / Fl.ofNat 2, fun _ => .nan, .nan⟩,
    fun j => p.stepIndInit * (B.hi j - B.lo j), fun j => p.stepVolInit * (B.hi j - B.lo j), Fl.ofNat N * p.wScale / Fl.ofNat 2⟩

/-- One fish in `individual_movement` (fss.py:223-234). -/
def moveOne (step : Vec D) (i : Fin N) (a : (Fin N → Fish D) × Vec D × Fl) : Prog (Vec D) ((Fin N → Fish D) × Vec D × Fl) := do
  let (school, xb, fxb) := a
  let fish := school i
  let u ← unifVec (fun _ : Fin D => -1) (fun _ => 1)
  let newPos ← Prog.repair fun j => fish.x j + step j * u j
  let cost ← Prog.eval newPos
  if cost < fish.f then
    return (Function.update school i { fish with dCost := Fl.abs (cost - fish.f), f := cost, dPos := fun j => newPos j - fish.x j, x := newPos },
      getBest1 newPos cost xb fxb)
  else
    return (Function.update school i { fish with dPos := fun _ => 0, dCost := 0 }, xb, fxb)

/-- Python's `max` of a non-empty sequence: the first element unless a later one is greater. -/
def pyMax : List Fl → Fl
  | [] => 0
  | v :: vs => vs.foldl (fun m u => if m < u then u else m) v

/-- `np.clip(x, lo, hi)` for scalars. -/
def clipF (x lo hi : Fl) : Fl := let y := if x < lo then lo else x; if hi < y then hi else y

/-- `feeding` (fss.py:189-204); `max` of an empty school raises `ValueError`. -/
def feeding (p : Par) (school : Fin N → Fish D) : Prog (Vec D) (Fin N → Fish D) :=
  if N = 0 then .throw .valueError else
    let m := pyMax (List.ofFn fun i => (school i).dCost)
    return fun i =>
      let fish := school i
      let w := if Fl.eqB m 0 then fish.weight else fish.weight + fish.dCost / m
      { fish with weight := clipF w p.minW p.wScale }

/-- `collective_instinctive_movement` (fss.py:237-254). -/
def instinctive (school : Fin N → Fish D) : Prog (Vec D) (Fin N → Fish D) := do
  let total : Vec D := fun j => vsum fun i => (school i).dCost * (school i).dPos j
  let density := vsum fun i => (school i).dCost
  let shift : Vec D := if Fl.eqB density 0 then total else fun j => total j / density
  tabM N fun i => do
    let x ← Prog.repair fun j => (school i).x j + shift j
    return { school i with x := x }

/-- One fish in `collective_volitive_movement` (fss.py:279-285): `fish.evaluate` repairs and evaluates. -/
def volOne (step bary : Vec D) (shrink : Bool) (i : Fin N) (a : (Fin N → Fish D) × Vec D × Fl) :
    Prog (Vec D) ((Fin N → Fish D) × Vec D × Fl) := do
  let (school, xb, fxb) := a
  let fish := school i
  let u ← unifVec (fun _ : Fin D => 0) (fun _ => 1)
  let x : Vec D := fun j =>
    let d := (fish.x j - bary j) * step j * u j
    if shrink then fish.x j - d else fish.x j + d
  let e ← Indiv.evaluate ⟨x, fish.f⟩
  return (Function.update school i { fish with x := e.x, f := e.f }, getBest1 e.x e.f xb fxb)

/-- `collective_volitive_movement` (fss.py:256-286). -/
def volitive (step : Vec D) (prev : Fl) (school : Fin N → Fish D) (xb : Vec D) (fxb : Fl) :
    Prog (Vec D) ((Fin N → Fish D) × Vec D × Fl) :=
  let w := vsum fun i => (school i).weight
  let bary : Vec D := fun j => (vsum fun i => (school i).x j * (school i).weight) / w
  forFin N (volOne step bary (decide (prev < w))) (school, xb, fxb)

/-- A step size in `update_steps` (fss.py:183-186). -/
def stepAt (a b : Fl) (v : TaskView) : Fl := a - Fl.ofNat (v.iters + 1) * (a - b) / limF v.maxIters

/-- `run_iteration` (fss.py:309-345) with `update_steps` (171-187). The `school_weight` handed on is the initial one. -/
def iter (p : Par) (s : St D N) (xb : Vec D) (fxb : Fl) : Prog (Vec D) (St D N × Vec D × Fl) := do
  let (school, xb, fxb) ← forFin N (moveOne s.stepInd) (s.school, xb, fxb)
  let school ← feeding p school
  let school ← instinctive school
  let (school, xb, fxb) ← volitive s.stepVol s.weight school xb fxb
  let v ← Prog.look
  return (⟨school, fun _ => stepAt p.stepIndInit p.stepIndFinal v, fun _ => stepAt p.stepVolInit p.stepVolFinal v, s.weight⟩, xb, fxb)

/-- Fish school search with population size `N` (fss.py). -/
def alg (opt : OptType) (B : Box D) (N : ℕ) (p : Par) : Alg (Vec D) where
  σ := St D N
  init := init opt B N p
  pop s := List.ofFn fun i => (s.school i).x
  fit s := List.ofFn fun i => (s.school i).f
  iter := iter p

variable {C : Ctx (Vec D)} {g : Ghost (Vec D)}

theorem feeding_old (p : Par) (school : Fin N → Fish D) : Yields C (feeding p school) fun r => ∀ i, (r i).x = (school i).x ∧ (r i).f = (school i).f := by
  unfold feeding
  split
  · exact .throw nofun
  · exact .pure' fun i => ⟨rfl, rfl⟩

theorem instinctive_quiet (school : Fin N → Fish D) : Quiet C (instinctive school) := by
  unfold instinctive
  yields

theorem verified (opt : OptType) (B : Box D) (N : ℕ) (p : Par) :
    Verified (alg opt B N p) (fun _ => False) true true (.exact N (2 * N)) := by
  refine ⟨fun C s b => ∀ i, C.Fit b (s.school i).x (s.school i).f, fun C hG hent _ => ⟨fun s b h => forall₂_ofFn h, fun g hg => ?_, ?_⟩⟩
  · simp only [alg, init, Prog.wp_bind']
    exact wp_initInd hg fun r g' _ h2 h3 h4 => ⟨h2, h3, h4⟩
  · intro s xb fxb g hI hF hc
    have hinc : Inc C xb fxb g := ⟨hF, hc⟩
    simp only [alg, iter, volitive, Prog.wp_bind']
    refine Prog.wp_mono ?_ (wp_forFin (fun k a g' => (∀ i, C.Fit g'.b (a.1 i).x (a.1 i).f) ∧
      Inc C a.2.1 a.2.2 g' ∧ g'.c = g.c + k) ⟨hI, hinc, rfl⟩ ?_)
    · rintro ⟨school, xb1, fxb1⟩ g1 ⟨h1, h2, h3⟩
      simp only at h1 h2 h3 ⊢
      refine (feeding_old p school).wp fun sch1 hs1 => (instinctive_quiet _).wp fun sch2 _ => ?_
      refine Prog.wp_mono ?_ (wp_forFin (fun k a g' => (∀ i : Fin N, i.1 < k → C.Fit g'.b (a.1 i).x (a.1 i).f) ∧
        Inc C a.2.1 a.2.2 g' ∧ g'.c = g1.c + k) ⟨fun i h => absurd h (by omega), h2, rfl⟩ ?_)
      · rintro ⟨school, xb2, fxb2⟩ g2 ⟨h1, h2, h4⟩
        simp only [Prog.wp_look]
        intro v
        exact ⟨fun i => h1 i i.2, h2.fit, h2.eq, Cost.ok_exact (by omega)⟩
      · rintro i ⟨sch, xb, fxb⟩ g ⟨h1, h2, h3⟩
        simp only [volOne, Prog.wp_bind']
        refine Yields.unifVec.quiet.wp fun u _ => wp_evaluate fun y v hy hv => ?_
        refine ⟨fun j hj => ?_, h2.leq hv, by simp [Ghost.eval, h3, add_assoc]⟩
        by_cases hji : j = i
        · subst hji; simpa using .new hv
        · simp only [Function.update_of_ne hji]
          exact (h1 j (by have : j.1 ≠ i.1 := fun h => hji (Fin.ext h); omega)).eval v
    · rintro i ⟨sch, xb, fxb⟩ g ⟨h1, h2, h3⟩
      simp only [moveOne, Prog.wp_bind']
      refine Yields.unifVec.quiet.wp fun u _ => Yields.repair.wp fun y hy => ?_
      rw [Prog.wp_eval]
      refine ⟨hy, fun v hv => ?_⟩
      simp only at h1 h2 h3 ⊢
      split
      · refine ⟨fun j => ?_, h2.leq hv, by simp [Ghost.eval, h3, add_assoc]⟩
        by_cases hji : j = i
        · subst hji; simpa using .new hv
        · simp only [Function.update_of_ne hji]
          exact (h1 j).eval v
      · rename_i hlt
        refine ⟨fun j => ?_, h2.keep fun hn => ?_, by simp [Ghost.eval, h3, add_assoc]⟩
        · by_cases hji : j = i
          · subst hji; simpa using (h1 j).eval v
          · simp only [Function.update_of_ne hji]
            exact (h1 j).eval v
        · exact Fl.le_trans (h2.le_fit (h1 i) hn) (Fl.le_of_not_lt (hn _ _ hv) (hn _ _ (h1 i).1) hlt)

/-- Two iterations of a concrete run. -/
example : (@alg Ex.arith 2 .minimization (Ex.box 2) 3 ⟨.fin (1 / 10), .fin (1 / 100), .fin (1 / 10), .fin (1 / 100), .fin 1, .fin 500⟩).okIters
    Ex.env2 1 5 = some 2 := by decide +kernel

/-! ## C92: the step sizes -/

omit [Arith] in
/-- What holds of the result and the last world of the rest holds of those of the whole. -/
theorem ends_bind {α β : Type} {env : Env (Vec D)} {q : Prog (Vec D) α} {f : α → Prog (Vec D) β} {Q : β → World (Vec D) → Prop}
    (h : ∀ a w w' r, (f a).run env w = (.ok r, w') → Q r w') (w w' : World (Vec D)) (r : β) (hr : (q >>= f).run env w = (.ok r, w')) : Q r w' := by
  simp only [Prog.bind_def, Prog.run_bind] at hr
  rcases hq : q.run env w with ⟨e | a, w3⟩
  · rw [hq] at hr; cases hr
  · rw [hq] at hr; exact h a w3 w' r hr

/-- The step sizes at the end of an iteration. -/
theorem iter_steps (p : Par) (s : St D N) (xb : Vec D) (fxb : Fl) {env : Env (Vec D)} :
    ∀ (w w' : World (Vec D)) (r : St D N × Vec D × Fl), (iter p s xb fxb).run env w = (.ok r, w') → ∃ v : TaskView, v.iters = w'.st.iters ∧
      v.maxIters = env.maxIters ∧ (r.1.stepInd = fun _ => stepAt p.stepIndInit p.stepIndFinal v) ∧
      r.1.stepVol = fun _ => stepAt p.stepVolInit p.stepVolFinal v := by
  refine ends_bind fun a1 => ends_bind fun a2 => ends_bind fun a3 => ends_bind fun a4 w w' r h => ?_
  simp only [Prog.bind_def, Prog.run_bind, Prog.run_look, Prog.pure_def, Prog.run_pure] at h
  cases h
  exact ⟨_, rfl, rfl, rfl, rfl⟩

/-- **C92 in part.** After `k ≥ 1` iterations both step sizes have moved by `k / max_iters` of the way to their final values, in every dimension alike. -/
theorem C92_fss_partial (opt : OptType) (B : Box D) (N : ℕ) (p : Par) (env : Env (Vec D)) (ncb : ℕ) (r' r : (alg opt B N p).σ × Vec D × Fl)
    (hist : List ((alg opt B N p).σ × Vec D × Fl)) (w : World (Vec D)) (ht : (alg opt B N p).Trace env ncb (r' :: r :: hist) w) (j : Fin D) :
    St.stepInd r'.1 j = p.stepIndInit - Fl.ofNat (hist.length + 1) * (p.stepIndInit - p.stepIndFinal) / limF env.maxIters ∧
    St.stepVol r'.1 j = p.stepVolInit - Fl.ofNat (hist.length + 1) * (p.stepVolInit - p.stepVolFinal) / limF env.maxIters := by
  have hl := ((verified opt B N p).toIf.trace_count env (metBy_none _ _) ht).1
  cases ht with
  | round _ _ hr =>
    obtain ⟨w1, w2, h1, -, -, h4, -⟩ := round_iter hr
    obtain ⟨v, h5, h6, h7, h8⟩ := iter_steps p _ _ _ _ _ _ h1
    have : hist.length = v.iters := by
      rw [h4] at hl
      simp only [nextIter, List.length_cons] at hl
      omega
    rw [h7, h8, stepAt, stepAt, h6, this]
    exact ⟨rfl, rfl⟩

omit [Arith] in
/-- **C92 in part.** Without rounding, in iteration `t` of `T` (counted from 0) the step size is between its final and its initial value, and the final
one in the last iteration. -/
theorem C92_fss_between_partial (fn : Fn → Fl → Fl) (a b : ℚ) (hab : b ≤ a) (v : TaskView) (T : ℕ) (hT : v.maxIters = some T) (hlt : v.iters < T) :
    letI := exactArith fn
    .fin b ≤ stepAt (.fin a) (.fin b) v ∧ stepAt (.fin a) (.fin b) v ≤ .fin a ∧ (v.iters + 1 = T → stepAt (.fin a) (.fin b) v = .fin b) := by
  have hpos : 0 < T := by omega
  have hT' : (0 : ℚ) < T := by exact_mod_cast hpos
  have key : @stepAt (exactArith fn) (.fin a) (.fin b) v = .fin (a - (a - b) * ((v.iters + 1) / T)) := by
    unfold stepAt
    rw [hT]
    simp only [Exact.ofNat_fin, Exact.sub_fin, Exact.mul_fin, Exact.div_some fn _ hpos, Fl.fin.injEq]
    push_cast
    ring
  have hle : ((v.iters : ℚ) + 1) / T ≤ 1 := (div_le_one hT').2 (by exact_mod_cast hlt)
  have hge : (0 : ℚ) ≤ ((v.iters : ℚ) + 1) / T := by positivity
  have hd : 0 ≤ a - b := by linarith
  refine ⟨?_, ?_, fun h => ?_⟩
  · rw [key, Fl.fin_le_fin]
    nlinarith
  · rw [key, Fl.fin_le_fin]
    nlinarith
  · have h1 : ((v.iters : ℚ) + 1) / T = 1 := by rw [← h]; push_cast; exact div_self (by positivity)
    rw [key, h1]
    congr 1
    ring

/-- **C92 fails**: the first iteration uses steps proportional to the width of the search space (`step_individual_init * range`), every later one steps
that do not depend on the search space, so that in a run with any limits the steps of two search spaces of different width agree from then on. -/
theorem C92_fss_false (opt opt' : OptType) (B B' : Box D) (N N' : ℕ) (p : Par) (env env' : Env (Vec D)) (ncb ncb' : ℕ) (hT : env.maxIters = env'.maxIters)
    (r r' : (alg opt B N p).σ × Vec D × Fl) (hist : List ((alg opt B N p).σ × Vec D × Fl)) (w : World (Vec D))
    (ht : (alg opt B N p).Trace env ncb (r' :: r :: hist) w)
    (s s' : (alg opt' B' N' p).σ × Vec D × Fl) (hist' : List ((alg opt' B' N' p).σ × Vec D × Fl)) (w' : World (Vec D))
    (ht' : (alg opt' B' N' p).Trace env' ncb' (s' :: s :: hist') w') (hl : hist.length = hist'.length) :
    St.stepInd r'.1 = St.stepInd s'.1 ∧ St.stepVol r'.1 = St.stepVol s'.1 := by
  have h := C92_fss_partial opt B N p env ncb r' r hist w ht
  have h' := C92_fss_partial opt' B' N' p env' ncb' s' s hist' w' ht'
  refine ⟨funext fun j => ?_, funext fun j => ?_⟩
  · rw [(h j).1, (h' j).1, hT, hl]
  · rw [(h j).2, (h' j).2, hT, hl]

/-- The first iteration uses steps proportional to the width of the search space. -/
theorem C92_fss_first (opt : OptType) (B : Box D) (N : ℕ) (p : Par) (env : Env (Vec D)) (ncb : ℕ) (r : (alg opt B N p).σ × Vec D × Fl)
    (w : World (Vec D)) (ht : (alg opt B N p).Trace env ncb [r] w) (j : Fin D) :
    St.stepInd r.1 j = p.stepIndInit * (B.hi j - B.lo j) ∧ St.stepVol r.1 j = p.stepVolInit * (B.hi j - B.lo j) := by
  cases ht with
  | start hs =>
    obtain ⟨w1, h1, -⟩ := start_init hs
    have : ∀ (w w' : World (Vec D)) (s : St D N), (init opt B N p).run env w = (.ok s, w') →
        s.stepInd j = p.stepIndInit * (B.hi j - B.lo j) ∧ s.stepVol j = p.stepVolInit * (B.hi j - B.lo j) := by
      refine ends_bind (Q := fun (s : St D N) _ => s.stepInd j = _ ∧ s.stepVol j = _) fun a w w' r h => ?_
      simp only [Prog.pure_def, Prog.run_pure] at h
      cases h
      exact ⟨rfl, rfl⟩
    exact this _ _ _ h1

/-- Runs of three rounds exist, over search spaces of different width. -/
example : ∃ hist w, (@alg Ex.arith 2 .minimization (Ex.box 2) 3 ⟨.fin (1 / 10), .fin (1 / 100), .fin (1 / 10), .fin (1 / 100), .fin 1, .fin 500⟩).Trace
    Ex.env2 1 hist w ∧ hist.length = 3 :=
  letI := Ex.arith; (verified .minimization (Ex.box 2) 3 _).toIf.exists_trace Ex.env2 (metBy_none _ _) (fuel := 5) (by decide +kernel)

end NiaPy.FSS
