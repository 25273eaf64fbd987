import Mathlib.Tactic.Ring
import Mathlib.Tactic.FieldSimp
import Mathlib.Tactic.Positivity
import Mathlib.Tactic.Linarith
import Verif.Algo.PSO

/-!
# Opposition-based and comprehensive-learning particle swarm optimization (`niapy/algorithms/basic/pso.py`), with C34 and C28

`ComprehensiveLearningParticleSwarmOptimizer` moves particles out of the box without evaluating them and keeps their old
fitness: population and fitness shown to callbacks do not belong together (`C28_clpso_false`).
-/

namespace NiaPy.PSO
open NiaPy
variable [Arith] {D N : ℕ}

/-! ## OppositionVelocityClampingParticleSwarmOptimization -/

/-- Parameters (pso.py:377-419). -/
structure OPar (D : ℕ) where
  base : Par D
  p0 : Fl
  wMin : Fl
  wMax : Fl
  sigma : Fl

/-- State: swarm and velocity bounds. `s_l` and `s_h` are the bounds of the task throughout. -/
structure OSt (D N : ℕ) where
  sw : St D N
  vmin : Vec D
  vmax : Vec D

/-- The opposite of a point (pso.py:457-458). -/
def opposite (B : Box D) (x : Vec D) : Vec D := fun j => B.lo j + B.hi j - x j

/-- `opposite_learning` (pso.py:438-463): population and opposites together, sorted. -/
def opposites (B : Box D) (s : St D N) : Prog (Vec D) (List (Vec D × Fl)) := do
  let opp ← evalRecs (List.ofFn fun i => opposite B (s.pop i))
  sortRecs (·.2) ((List.ofFn fun i => (s.pop i, s.fit i)) ++ opp)

/-- The population after `opposite_learning`, and the personal bests (pso.py:488-490, 532-534). The list has `2 * N` elements, so
that `getD` never takes the old individual. -/
def St.relearn (s : St D N) (l : List (Vec D × Fl)) : St D N :=
  let new : Fin N → Vec D × Fl := fun i => (l[(i : ℕ)]?).getD (s.pop i, s.fit i)
  { s with
    pop := fun i => (new i).1
    fit := fun i => (new i).2
    pb := fun i => if (new i).2 < s.pbf i then (new i).1 else s.pb i
    pbf := fun i => if (new i).2 < s.pbf i then (new i).2 else s.pbf i }

/-- `init_population` (pso.py:465-494). The velocity bounds are swapped: the minimal velocity is positive. -/
def initO (B : Box D) (N : ℕ) (p : OPar D) : Prog (Vec D) (OSt D N) := do
  let s ← init B N
  let l ← opposites B s
  return ⟨s.relearn l, fun j => p.sigma * (B.hi j - B.lo j), fun j => p.sigma * (B.lo j - B.hi j)⟩

/-- Smallest and largest value of every column (pso.py:547), NaN propagates. -/
def colMin (rows : Fin N → Vec D) : Vec D := fun j => (List.ofFn fun i => rows i j).foldl Fl.npMin .pinf
def colMax (rows : Fin N → Vec D) : Vec D := fun j => (List.ofFn fun i => rows i j).foldl Fl.npMax .ninf

/-- The inertia weight (pso.py:538). -/
def inertiaO (p : OPar D) (t : TaskView) : Fl := p.wMax - ((p.wMax - p.wMin) / limF t.maxIters) * Fl.ofNat (t.iters + 1)

/-- `run_iteration` (pso.py:496-550). -/
def iterO (B : Box D) (p : OPar D) (s : OSt D N) (xb : Vec D) (fxb : Fl) : Prog (Vec D) (OSt D N × Vec D × Fl) := do
  let r ← Prog.rand
  if r < p.p0 then
    let l ← opposites B s.sw
    match l with
    | [] => .throw .indexError
    | e :: l => return ({ s with sw := s.sw.relearn (e :: l) }, betterLt e.1 e.2 xb fxb)
  else
    let t ← Prog.look
    let w := inertiaO p t
    let (sw, xb, fxb) ← swarm (vel p.base (fun _ => w) s.vmin s.vmax) true s.sw xb fxb
    return (⟨sw, fun j => p.sigma * colMin sw.pop j, fun j => p.sigma * colMax sw.pop j⟩, xb, fxb)

/-- OVCPSO (pso.py:333-550). -/
def algO (B : Box D) (N : ℕ) (p : OPar D) : Alg (Vec D) where
  σ := OSt D N
  init := initO B N p
  pop s := List.ofFn s.sw.pop
  fit s := List.ofFn s.sw.fit
  iter := iterO B p

variable {C : Ctx (Vec D)} {g : Ghost (Vec D)} {B : Box D}

/-- The opposite of an allowed point is allowed. -/
def OppOK (B : Box D) (C : Ctx (Vec D)) : Prop := ∀ x, C.G x → C.G (opposite B x)

/-- The opposite of a point within the bounds is within the bounds. True of exact arithmetic (`oppLaw_exact`), not of floating
point. -/
def OppLaw (B : Box D) : Prop := ∀ x, B.NotOut x → B.NotOut (opposite B x)

omit [Arith] in
theorem oppLaw_exact (fn : Fn → Fl → Fl) (B : Box D) (hlo : ∀ i, ∃ q, B.lo i = .fin q) (hhi : ∀ i, ∃ q, B.hi i = .fin q) :
    @OppLaw (exactArith fn) D B := by
  letI := exactArith fn
  intro x hx j
  obtain ⟨lo, hl⟩ := hlo j
  obtain ⟨hi, hh⟩ := hhi j
  have hxj := hx j
  have ho : opposite B x j = Fl.addX (Fl.addX (B.lo j) (B.hi j)) (-x j) := rfl
  rw [ho]
  rw [hl, hh] at hxj ⊢
  cases h : x j with
  | nan => simp [Fl.addX]
  | fin q =>
    rw [h] at hxj
    simp only [Fl.fin_lt_fin, not_lt] at hxj
    change ¬ Fl.fin (lo + hi + -q) < Fl.fin lo ∧ ¬ Fl.fin hi < Fl.fin (lo + hi + -q)
    simp only [Fl.fin_lt_fin, not_lt]
    constructor <;> linarith
  | pinf => rw [h] at hxj; simp at hxj
  | ninf => rw [h] at hxj; simp at hxj

theorem wp_opposites (ho : OppOK B C) {s : St D N} (hs : Swarm C g.b s) {S : Fl → Prop} (hc : Cov C (fun u => S u ∨ ∃ i, u = s.fit i) g)
    {Q : List (Vec D × Fl) → Ghost (Vec D) → Prop}
    (hQ : ∀ l g', Below g'.b g.b → (∀ e ∈ l, C.G e.1 ∧ C.Fit g'.b e.1 e.2) → l.length = N + N →
      Cov C (fun u => S u ∨ ∃ e ∈ l.take 1, u = e.2) g' → g'.c = g.c + N → 0 < N → Q l g') : (opposites B s).wp C Q g := by
  simp only [opposites, Prog.wp_bind']
  refine wp_evalRecs (fun x hx => ?_) hc fun opp g' hN hb hf hcov hm hn => ?_
  · obtain ⟨i, rfl⟩ := List.mem_ofFn.1 hx
    exact ho _ (hs.good i)
  have hlen : opp.length = N := by have := congrArg List.length hm; simpa using this
  have hopp : ∀ e ∈ opp, C.G e.1 := fun e he => by
    have : e.1 ∈ opp.map (·.1) := List.mem_map_of_mem he
    rw [hm] at this
    obtain ⟨i, hi⟩ := List.mem_ofFn.1 this
    rw [← hi]
    exact ho _ (hs.good i)
  have hall : ∀ e ∈ (List.ofFn fun i => (s.pop i, s.fit i)) ++ opp, C.G e.1 ∧ C.Fit g'.b e.1 e.2 := fun e he => by
    rcases List.mem_append.1 he with he | he
    · obtain ⟨i, rfl⟩ := List.mem_ofFn.1 he
      exact ⟨hs.good i, (hs.fit i).mono hb⟩
    · exact ⟨hopp e he, hf e he⟩
  refine Yields.sortRecs.wp fun l hl => ?_
  refine hQ l g' hb (fun e he => hall e (hl.1.mem_iff.1 he)) ?_ ?_ (by simpa using hn) (by simpa using hN)
  · rw [hl.1.length_eq]; simp [hlen]
  · refine Cov.sorted (hcov.mono fun u hu => ?_) hl.1 hl.2
      (fun hnn e he => hnn _ _ (hall e he).2.1) (by omega)
    rcases hu with (hu | ⟨i, rfl⟩) | ⟨e, he, rfl⟩
    · exact Or.inl hu
    · exact Or.inr ⟨_, List.mem_append_left _ (List.mem_ofFn.2 ⟨i, rfl⟩), rfl⟩
    · exact Or.inr ⟨e, List.mem_append_right _ he, rfl⟩

theorem Swarm.relearn {b b' : Fl} {s : St D N} (hs : Swarm C b s) (hb : Below b' b) {l : List (Vec D × Fl)}
    (hl : ∀ e ∈ l, C.G e.1 ∧ C.Fit b' e.1 e.2) : Swarm C b' (s.relearn l) := by
  have hs' := hs.mono hb
  have key : ∀ i : Fin N, C.G ((l[(i : ℕ)]?).getD (s.pop i, s.fit i)).1 ∧
      C.Fit b' ((l[(i : ℕ)]?).getD (s.pop i, s.fit i)).1 ((l[(i : ℕ)]?).getD (s.pop i, s.fit i)).2 := fun i => by
    cases h : l[(i : ℕ)]? with
    | none => exact ⟨hs'.good i, hs'.fit i⟩
    | some e => exact hl e (List.mem_of_getElem? h)
  refine ⟨fun i => (key i).1, fun i => (key i).2, fun i => ?_⟩
  simp only [St.relearn]
  split
  · exact (key i).2
  · exact hs'.best i

theorem wp_initO (ho : OppOK B C) (p : OPar D) (hG : ∀ x, B.Mem x → C.G x) (hg : g.b = .pinf) :
    (initO B N p).wp C (fun s g' => Swarm C g'.b s.sw ∧ Cov C (· ∈ List.ofFn s.sw.fit) g' ∧ g'.c = g.c + 2 * N) g := by
  simp only [initO, Prog.wp_bind']
  refine Prog.wp_mono (fun s g1 hs => ?_) (wp_init hG hg)
  obtain ⟨hs, -, -, hc, hn⟩ := hs
  refine wp_opposites (S := fun _ => False) ho hs (hc.mono fun u hu => ?_) fun l g2 hb hl hlen hcov hn2 hN => ?_
  · obtain ⟨i, rfl⟩ := List.mem_ofFn.1 hu
    exact Or.inr ⟨i, rfl⟩
  · refine ⟨hs.relearn hb hl, hcov.mono fun u hu => ?_, by omega⟩
    obtain ⟨e, he, rfl⟩ := hu.resolve_left id
    cases l with
    | nil => cases he
    | cons a l =>
      cases List.mem_singleton.1 he
      exact List.mem_ofFn.2 ⟨⟨0, hN⟩, rfl⟩

theorem wp_iterO (ho : OppOK B C) (p : OPar D) {s : OSt D N} {xb : Vec D} {fxb : Fl} (hs : Swarm C g.b s.sw) (hinc : Inc C xb fxb g) :
    (iterO B p s xb fxb).wp C (fun r g' => Swarm C g'.b r.1.sw ∧ Inc C r.2.1 r.2.2 g' ∧ g'.c = g.c + N) g := by
  simp only [iterO, Prog.wp_bind']
  refine Yields.rand.wp fun r _ => ?_
  rw [wp_ite]
  refine ⟨fun _ => ?_, fun _ => ?_⟩
  · simp only [Prog.wp_bind']
    refine wp_opposites (S := (· = fxb)) ho hs (hinc.cov.mono fun _ => Or.inl) fun l g' hb hl _ hcov hn _ => ?_
    cases l with
    | nil => exact nofun
    | cons e l =>
      refine ⟨hs.relearn hb hl, ?_, hn⟩
      have he := (hl e (by simp)).2
      have hfx := hinc.toFit.mono hb
      replace hcov := hcov.mono (S' := fun u => u = fxb ∨ u = e.2) fun u hu => by simpa using hu
      simp only [betterLt]
      split
      · rename_i hlt
        exact Inc.of_cov he (hcov.weaken fun hnn u hu hne => by
          rcases hu with rfl | rfl
          · exact ⟨_, rfl, Fl.le_of_lt hlt⟩
          · exact ⟨_, rfl, Fl.le_refl hne⟩)
      · rename_i hlt
        exact Inc.of_cov hfx (hcov.weaken fun hnn u hu hne => by
          rcases hu with rfl | rfl
          · exact ⟨_, rfl, Fl.le_refl hne⟩
          · exact ⟨_, rfl, Fl.le_of_not_lt (hnn _ _ he.1) (hnn _ _ hfx.1) hlt⟩)
  · simp only [Prog.wp_bind', Prog.wp_look]
    intro v
    exact Prog.wp_mono (fun r g' h => h) (wp_swarm (quiet_vel _ _ _ _) true hs hinc)

/-- The obligations of OVCPSO: `2 * N` evaluations in the beginning, `N` per iteration. -/
theorem verifiedO (B : Box D) (N : ℕ) (p : OPar D) : VerifiedIf (OppOK B) (algO B N p) B.Mem true true (.exact (2 * N) N) := by
  refine ⟨fun C (s : OSt D N) b => Swarm C b s.sw, fun C hC hG _ _ => AlgOK.toW ⟨fun s b h => forall₂_ofFn h.fit, fun g hg => ?_, ?_⟩⟩
  · exact wp_initO hC p hG hg
  · intro s xb fxb g hI hF hc
    exact Prog.wp_mono (fun r g' h => ⟨h.1, h.2.1.fit, h.2.1.eq, Cost.ok_exact h.2.2⟩) (wp_iterO hC p hI ⟨hF, hc⟩)

/-! ### C34 -/

/-- In a context without tracking, the invariant of the swarm is about the pairs of solution and fitness only. -/
theorem Swarm.untracked {w : World (Vec D)} {env : Env (Vec D)} {b b' : Fl} {s : St D N} (h : Swarm (w.ctx env False) b s) :
    Swarm (w.ctx env False) b' s :=
  ⟨h.good, fun i => World.fit_of (h.fit i).1, fun i => World.fit_of (h.best i).1⟩

theorem wp_relearn_records (s : St D N) (l : List (Vec D × Fl)) (i : Fin N) :
    Records (s.pb i, s.pbf i) ((s.relearn l).pop i, (s.relearn l).fit i) ((s.relearn l).pb i, (s.relearn l).pbf i) := by
  simp only [St.relearn, Records]
  split
  · exact Or.inl ⟨by assumption, rfl⟩
  · exact Or.inr ⟨by assumption, rfl⟩

theorem opposites_any (s : St D N) (g : Ghost (Vec D)) : (opposites B s).wp Ctx.any (fun _ _ => True) g := by
  refine wp_opposites (C := Ctx.any) (S := fun _ => False) (fun _ _ => trivial) ⟨fun _ => trivial, fun i => ⟨trivial, fun hn => hn.trk.elim⟩, fun i => ⟨trivial, fun hn => hn.trk.elim⟩⟩
    (fun hn => hn.trk.elim) fun _ _ _ _ _ _ _ _ => trivial

theorem initO_records (B : Box D) (N : ℕ) (p : OPar D) (g : Ghost (Vec D)) :
    (initO B N p).wp Ctx.any (fun s _ => ∀ i, ¬ s.sw.fit i < s.sw.pbf i) g := by
  simp only [initO, Prog.wp_bind']
  refine Prog.wp_mono (fun s g1 _ => ?_) (init_records B N g)
  exact Prog.wp_mono (fun l _ _ i => (wp_relearn_records s l i).lowers.2) (opposites_any s g1)

theorem iterO_records (B : Box D) (p : OPar D) (s : OSt D N) (xb : Vec D) (fxb : Fl) (g : Ghost (Vec D)) :
    (iterO B p s xb fxb).wp Ctx.any (fun r _ => ∀ i, Records (s.sw.pb i, s.sw.pbf i) (r.1.sw.pop i, r.1.sw.fit i)
      (r.1.sw.pb i, r.1.sw.pbf i)) g := by
  simp only [iterO, Prog.wp_bind']
  refine Yields.rand.wp fun r _ => ?_
  rw [wp_ite]
  refine ⟨fun _ => ?_, fun _ => ?_⟩
  · simp only [Prog.wp_bind']
    refine Prog.wp_mono (fun l g' _ => ?_) (opposites_any s.sw g)
    cases l with
    | nil => exact nofun
    | cons e l => exact fun i => wp_relearn_records s.sw (e :: l) i
  · simp only [Prog.wp_bind', Prog.wp_look]
    intro v
    exact Prog.wp_mono (fun r g' h => h) (swarm_records (quiet_vel _ _ _ _) true _ _ _ _)

/-- C34 for OVCPSO: the personal best of particle `i` was evaluated with the fitness recorded (`+inf` if the budget was used
up), and no fitness value the particle has had is better. (It need not be a position that was shown: the personal bests start
with the random population, which is then replaced by the better half of it and its opposites.) -/
theorem C34_ovcpso (B : Box D) (N : ℕ) (p : OPar D) (env : Env (Vec D)) (ncb : ℕ) (r : OSt D N × Vec D × Fl)
    (hist : List (OSt D N × Vec D × Fl)) (w : World (Vec D)) (h : (algO B N p).Trace env ncb (r :: hist) w) (i : Fin N) :
    FitOK env.opt w.calls (r.1.sw.pb i) (r.1.sw.pbf i) ∧ ∀ t ∈ r :: hist, ¬ t.1.sw.fit i < r.1.sw.pbf i := by
  constructor
  · have := h.all (P := fun (s : OSt D N) => Swarm (w.ctx env False) .nan s.sw) (fun g hg => ?_) (fun (r : OSt D N × Vec D × Fl) g hs hf => ?_) r
      List.mem_cons_self
    · exact (this.best i).1
    · exact Prog.wp_mono (fun s g' h => ⟨h.1.untracked, forall₂_ofFn fun i => (h.1.fit i).1⟩) (wp_initO (fun _ _ => trivial) p (fun _ _ => trivial) hg)
    · exact Prog.wp_mono (fun r' g' h => ⟨h.1.untracked, h.2.1.fit⟩) (wp_iterO (fun _ _ => trivial) p hs.untracked ⟨hf, fun hn => hn.trk.elim⟩)
  · exact h.lowers (fun (s : OSt D N) i => (s.sw.pop i, s.sw.fit i)) (fun (s : OSt D N) i => (s.sw.pb i, s.sw.pbf i))
      (initO_records B N p) (fun (r : OSt D N × Vec D × Fl) g _ => Prog.wp_mono (fun _ _ h i => (h i).lowers) (iterO_records B p r.1 r.2.1 r.2.2 g)) i

/-! ## ComprehensiveLearningParticleSwarmOptimizer -/

/-- Parameters (pso.py:990-1016). -/
structure CPar (D : ℕ) where
  base : Par D
  m : ℤ
  w0 : Fl
  w1 : Fl
  c : Fl

/-- State: swarm and refreshing gaps. The gap `flag` starts at 0 and is never increased (pso.py:1053, 1150). -/
structure CSt (D N : ℕ) where
  sw : St D N
  flag : Fin N → ℤ

/-- The learning probability of particle `i` (pso.py:1054-1056). -/
def pc (N : ℕ) (i : ℕ) : Fl :=
  lit 5 100 + lit 45 100 * (Arith.fn .exp (Fl.ofNat 10 * (Fl.ofNat i - Fl.ofNat 1) / (Fl.ofNat N - Fl.ofNat 1)) - Fl.ofNat 1) /
    (Arith.fn .exp (Fl.ofNat 10) - Fl.ofNat 1)

/-- `init_population` with `init` (pso.py:1037-1056). With one particle the learning probability divides by zero. -/
def initC (B : Box D) (N : ℕ) : Prog (Vec D) (CSt D N) := do
  let s ← init B N
  if N = 1 then .throw .zeroDivisionError
  return ⟨s, fun _ => 0⟩

/-- `generate_personal_best_cl` (pso.py:1058-1081). -/
def exemplar (s : St D N) (i : Fin N) : Prog (Vec D) (Vec D) :=
  tabM D fun j => do
    let r ← Prog.rand
    if pc N i < r then return s.pb i j
    else
      let r1 ← scaleIdx N
      let r2 ← scaleIdx N
      return if s.pbf r1 < s.pbf r2 then s.pb r1 j else s.pb r2 j

/-- `update_velocity_cl` (pso.py:1083-1099). -/
def velCl (p : CPar D) (w : Fl) (v x pb : Vec D) : Prog (Vec D) (Vec D) := do
  let r ← randVec D
  return p.base.rep (fun j => w * v j + p.c * r j * (pb j - x j)) p.base.vmin p.base.vmax

/-- The step taken when the refreshing gap is used up (pso.py:1142-1150). -/
def refresh (p : CPar D) (i : Fin N) (s : CSt D N × Vec D × Fl) : Prog (Vec D) (CSt D N × Vec D × Fl) :=
  if p.m ≤ s.1.flag i then do
    let r ← particle (vel p.base (fun _ => Fl.ofNat 1) p.base.vmin p.base.vmax) true i (s.1.sw, s.2)
    return (⟨r.1, Function.update s.1.flag i 0⟩, r.2)
  else return s

/-- A particle moves without being evaluated. -/
def St.move (s : St D N) (i : Fin N) (v x : Vec D) : St D N := { s with pop := Function.update s.pop i x, v := Function.update s.v i v }

/-- The step with comprehensive learning (pso.py:1151-1159): the particle is evaluated only if it is within the bounds; otherwise
it moves and keeps its fitness. -/
def learnCl (B : Box D) (p : CPar D) (w : Fl) (i : Fin N) (s : CSt D N × Vec D × Fl) : Prog (Vec D) (CSt D N × Vec D × Fl) := do
  let pb ← exemplar s.1.sw i
  let v ← velCl p w (s.1.sw.v i) (s.1.sw.pop i) pb
  let x : Vec D := fun j => s.1.sw.pop i j + v j
  if isFeasible B x then
    let f ← Prog.eval x
    return ({ s.1 with sw := s.1.sw.record i v x f }, global true (s.1.sw.pbf i) x f s.2.1 s.2.2)
  else return ({ s.1 with sw := s.1.sw.move i v x }, s.2)

/-- The inertia weight (pso.py:1140). -/
def inertiaC (p : CPar D) (t : TaskView) : Fl := p.w0 * (p.w0 - p.w1) * Fl.ofNat (t.iters + 1) / limF t.maxIters

/-- `run_iteration` (pso.py:1101-1162). -/
def iterC (B : Box D) (p : CPar D) (s : CSt D N) (xb : Vec D) (fxb : Fl) : Prog (Vec D) (CSt D N × Vec D × Fl) := do
  let t ← Prog.look
  let w := inertiaC p t
  forFin N (fun i s => do
    let s ← refresh p i s
    learnCl B p w i s) (s, xb, fxb)

/-- CLPSO (pso.py:943-1162). -/
def algC (B : Box D) (N : ℕ) (p : CPar D) : Alg (Vec D) where
  σ := CSt D N
  init := initC B N
  pop s := List.ofFn s.sw.pop
  fit s := List.ofFn s.sw.fit
  iter := iterC B p

theorem exemplar_quiet (s : St D N) (i : Fin N) : Quiet C (exemplar s i) := by
  unfold exemplar; yields

theorem velCl_quiet (p : CPar D) (w : Fl) (v x pb : Vec D) : Quiet C (velCl p w v x pb) := by
  unfold velCl; yields

/-- Invariant: the personal bests were evaluated; nothing about the population. -/
def Bests (C : Ctx (Vec D)) (b : Fl) (s : St D N) : Prop := ∀ i, C.Fit b (s.pb i) (s.pbf i)

theorem wp_refresh (p : CPar D) (i : Fin N) {s : CSt D N × Vec D × Fl} (hs : Bests C g.b s.1.sw) (hinc : Inc C s.2.1 s.2.2 g) :
    (refresh p i s).wp C (fun r g' => Bests C g'.b r.1.sw ∧ Inc C r.2.1 r.2.2 g' ∧ g.c ≤ g'.c ∧ g'.c ≤ g.c + 1) g := by
  unfold refresh
  rw [wp_ite]
  refine ⟨fun _ => ?_, fun _ => ⟨hs, hinc, le_refl _, by omega⟩⟩
  simp only [particle, Prog.wp_bind']
  refine (vel_quiet ..).wp fun v _ => ?_
  refine Yields.repair.wp fun x hx => ?_
  rw [Prog.wp_eval]
  refine ⟨hx, fun u hu => ⟨?_, Inc.global hinc (hs i) hu true, by simp [Ghost.eval], by simp [Ghost.eval]⟩⟩
  exact best_record (fun i => (hs i).eval u) i v (.new hu)

theorem wp_learnCl (hG : ∀ x, B.Mem x → C.G x) (p : CPar D) (w : Fl) (i : Fin N) {s : CSt D N × Vec D × Fl} (hs : Bests C g.b s.1.sw)
    (hinc : Inc C s.2.1 s.2.2 g) :
    (learnCl B p w i s).wp C (fun r g' => Bests C g'.b r.1.sw ∧ Inc C r.2.1 r.2.2 g' ∧ g.c ≤ g'.c ∧ g'.c ≤ g.c + 1) g := by
  simp only [learnCl, Prog.wp_bind']
  refine (exemplar_quiet ..).wp fun pb _ => ?_
  refine (velCl_quiet ..).wp fun v _ => ?_
  rw [wp_ite]
  refine ⟨fun hfe => ?_, fun _ => ⟨hs, hinc, le_refl _, by omega⟩⟩
  simp only [Prog.wp_bind', Prog.wp_eval]
  refine ⟨hG _ ((C11_is_feasible B _).1 hfe), fun u hu => ⟨?_, Inc.global hinc (hs i) hu true, by simp [Ghost.eval], by simp [Ghost.eval]⟩⟩
  exact best_record (fun i => (hs i).eval u) i v (.new hu)

theorem wp_iterC (hG : ∀ x, B.Mem x → C.G x) (p : CPar D) {s : CSt D N} {xb : Vec D} {fxb : Fl} (hs : Bests C g.b s.sw) (hinc : Inc C xb fxb g) :
    (iterC B p s xb fxb).wp C (fun r g' => Bests C g'.b r.1.sw ∧ Inc C r.2.1 r.2.2 g' ∧ g.c ≤ g'.c ∧ g'.c ≤ g.c + 2 * N) g := by
  simp only [iterC, Prog.wp_bind', Prog.wp_look]
  intro t
  refine Prog.wp_mono (fun r g' h => h) (wp_forFin (fun k (r : CSt D N × Vec D × Fl) g' =>
    Bests C g'.b r.1.sw ∧ Inc C r.2.1 r.2.2 g' ∧ g.c ≤ g'.c ∧ g'.c ≤ g.c + 2 * k) ⟨hs, hinc, le_refl _, le_refl _⟩ ?_)
  intro i r g1 h
  simp only [Prog.wp_bind']
  refine Prog.wp_mono (fun r1 g2 h1 => ?_) (wp_refresh p i h.1 h.2.1)
  refine Prog.wp_mono (fun r2 g3 h2 => ?_) (wp_learnCl hG p _ i h1.1 h1.2.1)
  exact ⟨h2.1, h2.2.1, by omega, by omega⟩

theorem wp_initC (hG : ∀ x, B.Mem x → C.G x) (hg : g.b = .pinf) :
    (initC B N).wp C (fun s g' => Bests C g'.b s.sw ∧ (∀ i, C.Fit g'.b (s.sw.pop i) (s.sw.fit i)) ∧
      Cov C (· ∈ List.ofFn s.sw.fit) g' ∧ g'.c = g.c + N) g := by
  simp only [initC, Prog.wp_bind']
  refine Prog.wp_mono (fun s g1 hs => ?_) (wp_init hG hg)
  rw [wp_ite]
  exact ⟨fun _ => nofun, fun _ => ⟨hs.1.best, hs.1.fit, hs.2.2.2.1, hs.2.2.2.2⟩⟩

/-- The obligations of CLPSO: at most `2 * N` evaluations per iteration, and nothing is said about the fitness values of the
population shown. -/
theorem verifiedC (B : Box D) (N : ℕ) (p : CPar D) : VerifiedIf NoAssumption (algC B N p) B.Mem true true ⟨N, 0, some (2 * N)⟩ False := by
  refine ⟨fun C (s : CSt D N) b => Bests C b s.sw, fun C hC hG _ _ => ⟨nofun, fun g hg => ?_, ?_⟩⟩
  · exact Prog.wp_mono (fun s g' h => ⟨h.1, forall₂_ofFn h.2.1, h.2.2.1, h.2.2.2⟩) (wp_initC hG hg)
  · intro s xb fxb g hI hF hc
    exact Prog.wp_mono (fun r g' h => ⟨h.1, h.2.1.fit, h.2.1.eq, h.2.2.1, fun k hk => by cases hk; exact h.2.2.2⟩)
      (wp_iterC hG p hI ⟨hF, hc⟩)

/-! ### C34 -/

theorem St.record_lowers (s : St D N) (i : Fin N) (v x : Vec D) (f : Fl) (j : Fin N) (h : ¬ s.fit j < s.pbf j) :
    Lowers (s.pb j, s.pbf j) ((s.record i v x f).pop j, (s.record i v x f).fit j) ((s.record i v x f).pb j, (s.record i v x f).pbf j) := by
  by_cases hij : j = i
  · subst hij
    by_cases hf : f < s.pbf j <;> simp [St.record, Lowers, hf, Fl.lt_irrefl]
  · by_cases hf : f < s.pbf i <;> simp [St.record, Lowers, hf, hij, h]

/-- The steps of CLPSO only lower the recorded values. -/
def Steps (s s' : St D N) : Prop := (∀ i, s'.pbf i = s.pbf i ∨ s'.pbf i < s.pbf i) ∧ ∀ i, ¬ s'.fit i < s'.pbf i

theorem Steps.refl {s : St D N} (h : ∀ i, ¬ s.fit i < s.pbf i) : Steps s s := ⟨fun _ => Or.inl rfl, h⟩

theorem Steps.trans {s s' s'' : St D N} (h : Steps s s') (h' : Steps s' s'') : Steps s s'' := by
  refine ⟨fun i => ?_, h'.2⟩
  rcases h.1 i with h1 | h1 <;> rcases h'.1 i with h2 | h2
  · exact Or.inl (h2.trans h1)
  · rw [h1] at h2; exact Or.inr h2
  · rw [← h2] at h1; exact Or.inr h1
  · exact Or.inr (Fl.lt_trans h2 h1)

theorem Steps.record {s : St D N} (h : ∀ i, ¬ s.fit i < s.pbf i) (i : Fin N) (v x : Vec D) (f : Fl) : Steps s (s.record i v x f) :=
  ⟨fun j => (s.record_lowers i v x f j (h j)).1, fun j => (s.record_lowers i v x f j (h j)).2⟩

theorem refresh_steps (p : CPar D) (i : Fin N) (s : CSt D N × Vec D × Fl) (h : ∀ i, ¬ s.1.sw.fit i < s.1.sw.pbf i) (g : Ghost (Vec D)) :
    (refresh p i s).wp Ctx.any (fun r _ => Steps s.1.sw r.1.sw) g := by
  unfold refresh
  rw [wp_ite]
  refine ⟨fun _ => ?_, fun _ => .refl h⟩
  simp only [particle, Prog.wp_bind']
  refine (vel_quiet ..).wp fun v _ => ?_
  refine Yields.repair.wp fun x hx => ?_
  rw [Prog.wp_eval]
  exact ⟨trivial, fun u _ => .record h i v x u⟩

theorem learnCl_steps (B : Box D) (p : CPar D) (w : Fl) (i : Fin N) (s : CSt D N × Vec D × Fl) (h : ∀ i, ¬ s.1.sw.fit i < s.1.sw.pbf i)
    (g : Ghost (Vec D)) : (learnCl B p w i s).wp Ctx.any (fun r _ => Steps s.1.sw r.1.sw) g := by
  simp only [learnCl, Prog.wp_bind']
  refine (exemplar_quiet ..).wp fun pb _ => ?_
  refine (velCl_quiet ..).wp fun v _ => ?_
  rw [wp_ite]
  refine ⟨fun hfe => ?_, fun _ => .refl h⟩
  simp only [Prog.wp_bind', Prog.wp_eval]
  exact ⟨trivial, fun u _ => .record h i v _ u⟩

theorem iterC_steps (B : Box D) (p : CPar D) (s : CSt D N) (xb : Vec D) (fxb : Fl) (h : ∀ i, ¬ s.sw.fit i < s.sw.pbf i) (g : Ghost (Vec D)) :
    (iterC B p s xb fxb).wp Ctx.any (fun r _ => Steps s.sw r.1.sw) g := by
  simp only [iterC, Prog.wp_bind', Prog.wp_look]
  intro t
  refine wp_forFin (fun _ (r : CSt D N × Vec D × Fl) _ => Steps s.sw r.1.sw) (.refl h) ?_
  intro i r g1 h1
  simp only [Prog.wp_bind']
  refine Prog.wp_mono (fun r1 g2 h2 => ?_) (refresh_steps p i r h1.2 g1)
  exact Prog.wp_mono (fun r2 g3 h3 => (h1.trans h2).trans h3) (learnCl_steps B p _ i r1 h2.2 g2)

theorem initC_records (B : Box D) (N : ℕ) (g : Ghost (Vec D)) :
    (initC B N).wp Ctx.any (fun s _ => ∀ i, ¬ s.sw.fit i < s.sw.pbf i) g := by
  simp only [initC, Prog.wp_bind']
  refine Prog.wp_mono (fun s g1 hs => ?_) (init_records B N g)
  rw [wp_ite]
  refine ⟨fun _ => nofun, fun _ i => ?_⟩
  have := congrFun hs i
  simp only [Prod.mk.injEq] at this
  change ¬ s.fit i < s.pbf i
  rw [this.2]
  exact Fl.lt_irrefl _

/-- C34 for CLPSO: the personal best of particle `i` was evaluated with the fitness recorded (`+inf` if the budget was used
up), and no fitness value the particle has had is better. -/
theorem C34_clpso (B : Box D) (N : ℕ) (p : CPar D) (env : Env (Vec D)) (ncb : ℕ) (r : CSt D N × Vec D × Fl)
    (hist : List (CSt D N × Vec D × Fl)) (w : World (Vec D)) (h : (algC B N p).Trace env ncb (r :: hist) w) (i : Fin N) :
    FitOK env.opt w.calls (r.1.sw.pb i) (r.1.sw.pbf i) ∧ ∀ t ∈ r :: hist, ¬ t.1.sw.fit i < r.1.sw.pbf i := by
  constructor
  · have := h.all (P := fun (s : CSt D N) => Bests (w.ctx env False) .nan s.sw) (fun g hg => ?_) (fun (r : CSt D N × Vec D × Fl) g hs hf => ?_) r
      List.mem_cons_self
    · exact (this i).1
    · exact Prog.wp_mono (fun s g' h => ⟨fun i => World.fit_of (h.1 i).1, forall₂_ofFn fun i => (h.2.1 i).1⟩) (wp_initC (fun _ _ => trivial) hg)
    · exact Prog.wp_mono (fun r' g' h => ⟨fun i => World.fit_of (h.1 i).1, h.2.1.fit⟩)
        (wp_iterC (fun _ _ => trivial) p (fun i => World.fit_of (hs i).1) ⟨hf, fun hn => hn.trk.elim⟩)
  · exact h.lowers (fun (s : CSt D N) i => (s.sw.pop i, s.sw.fit i)) (fun (s : CSt D N) i => (s.sw.pb i, s.sw.pbf i))
      (initC_records B N) (fun (r : CSt D N × Vec D × Fl) g h => Prog.wp_mono (fun _ _ h i => ⟨h.1 i, h.2 i⟩) (iterC_steps B p r.1 r.2.1 r.2.2 h g)) i

/-! ### Examples -/

/-- Two parameter settings without velocity bounds. -/
def exPar : Par 1 := ⟨.fin (3 / 2), .fin (3 / 2), fun _ => .fin (1 / 2), fun _ => .ninf, fun _ => .pinf, fun v _ _ => v⟩

def exO : Alg (Vec 1) := @algO Ex.arith 1 (Ex.box 1) 3 ⟨exPar, .fin (1 / 2), .fin (1 / 2), .fin 1, .fin (1 / 10)⟩

def exC : Alg (Vec 1) := @algC Ex.arith 1 (Ex.box 1) 3 ⟨exPar, 10, .fin (9 / 10), .fin (4 / 10), .fin 100⟩

example : exO.okIters Ex.env2 1 5 = some 2 := by decide +kernel
example : exC.okIters Ex.env2 1 5 = some 2 := by decide +kernel
example : @OppLaw Ex.arith 1 (Ex.box 1) := oppLaw_exact _ _ (fun _ => ⟨_, rfl⟩) fun _ => ⟨_, rfl⟩

/-- The hypotheses of C34 hold of these runs, which have three states. -/
example : ∃ r hist w, exO.Trace Ex.env2 1 (r :: hist) w ∧ hist.length = 2 := by
  obtain ⟨hist, w, h1, h2⟩ := (@verifiedO Ex.arith 1 (Ex.box 1) 3 _).exists_trace Ex.env2 (P := fun _ => True) (sh := True) (fun C _ _ hC _ _ _ _ => by rw [hC]; trivial) (ncb := 1)
    (fuel := 5) (n := 2) (show exO.okIters Ex.env2 1 5 = some 2 by decide +kernel)
  cases hist with
  | nil => cases h2
  | cons r hist => exact ⟨r, hist, w, h1, Nat.succ.inj h2⟩

example : ∃ r hist w, exC.Trace Ex.env2 1 (r :: hist) w ∧ hist.length = 2 := by
  obtain ⟨hist, w, h1, h2⟩ := (@verifiedC Ex.arith 1 (Ex.box 1) 3 _).exists_trace Ex.env2 (metBy_none _ _) (ncb := 1)
    (fuel := 5) (n := 2) (show exC.okIters Ex.env2 1 5 = some 2 by decide +kernel)
  cases hist with
  | nil => cases h2
  | cons r hist => exact ⟨r, hist, w, h1, Nat.succ.inj h2⟩

/-- C28 is false of CLPSO: a particle that has left the box is shown with the fitness of a solution evaluated before. -/
theorem C28_clpso_false : ∃ (env : Env (Vec 1)) (p : CPar 1), NoNaN env ∧
    ¬ ∀ e ∈ ((@algC Ex.arith 1 (Ex.box 1) 3 p).exec env true 1 9).2.events,
      EventAligned (FitOK env.opt ((@algC Ex.arith 1 (Ex.box 1) 3 p).exec env true 1 9).2.calls) True e.2 :=
  ⟨Ex.env2 6, ⟨exPar, 10, .fin (9 / 10), .fin (4 / 10), .fin 100⟩, Ex.env2_noNaN _ _, not_aligned (by decide +kernel)⟩

/-! ## C92: inertia weights -/

omit [Arith] in
/-- **C92.** In iteration `t` of `T` (counted from 0) of `OppositionVelocityClampingParticleSwarmOptimization` the inertia weight falls from near `w_max`
to `w_min` in the last iteration. -/
theorem C92_ovcpso (fn : Fn → Fl → Fl) (p : OPar D) (w0 w1 : ℚ) (h0 : p.wMin = .fin w0) (h1 : p.wMax = .fin w1) (hw : w0 ≤ w1) (v : TaskView) (T : ℕ)
    (hT : v.maxIters = some T) (hlt : v.iters < T) :
    letI := exactArith fn
    inertiaO p v = .fin (w1 - (w1 - w0) * ((v.iters + 1) / T)) ∧ p.wMin ≤ inertiaO p v ∧ inertiaO p v ≤ p.wMax ∧
      (v.iters + 1 = T → inertiaO p v = p.wMin) ∧ ∀ v' : TaskView, v'.maxIters = some T → v.iters ≤ v'.iters → inertiaO p v' ≤ inertiaO p v := by
  have hpos : 0 < T := by omega
  have hT' : (0 : ℚ) < T := by exact_mod_cast hpos
  have key : ∀ u : TaskView, u.maxIters = some T → @inertiaO (exactArith fn) D p u = .fin (w1 - (w1 - w0) * ((u.iters + 1) / T)) := fun u hu => by
    unfold inertiaO
    rw [hu, h0, h1]
    simp only [Exact.ofNat_fin, Exact.sub_fin, Exact.div_some fn _ hpos, Exact.mul_fin, Fl.fin.injEq]
    push_cast
    ring
  have hle : ((v.iters : ℚ) + 1) / T ≤ 1 := (div_le_one hT').2 (by exact_mod_cast hlt)
  have hge : (0 : ℚ) ≤ ((v.iters : ℚ) + 1) / T := by positivity
  have hd : 0 ≤ w1 - w0 := by linarith
  refine ⟨key v hT, ?_, ?_, fun h => ?_, fun v' h' hlt' => ?_⟩
  · rw [key v hT, h0, Fl.fin_le_fin]
    nlinarith
  · rw [key v hT, h1, Fl.fin_le_fin]
    nlinarith
  · have h1 : ((v.iters : ℚ) + 1) / T = 1 := by rw [← h]; push_cast; exact div_self (by positivity)
    rw [key v hT, h0, h1]
    congr 1
    ring
  · rw [key v hT, key v' h', Fl.fin_le_fin]
    have : ((v.iters : ℚ) + 1) / T ≤ (v'.iters + 1) / T := (div_le_div_iff_of_pos_right hT').2 (by exact_mod_cast Nat.succ_le_succ hlt')
    nlinarith

omit [Arith] in
/-- **C92 fails without that limit**: the inertia weight is `w_max` throughout. -/
theorem C92_ovcpso_false (fn : Fn → Fl → Fl) (p : OPar D) (w0 w1 : ℚ) (h0 : p.wMin = .fin w0) (h1 : p.wMax = .fin w1) (v : TaskView)
    (hT : v.maxIters = none) : letI := exactArith fn; inertiaO p v = p.wMax := by
  unfold inertiaO
  rw [hT, h0, h1]
  simp only [Exact.ofNat_fin, Exact.sub_fin, Exact.div_none, Exact.mul_fin, zero_mul, sub_zero]

omit [Arith] in
/-- **C92 fails for `ComprehensiveLearningParticleSwarmOptimizer`**: with `w1 ≤ w0 ≤ 1` the inertia weight is `w0 (w0 - w1) (t + 1) / T` in iteration `t`
of `T`. It rises instead of falling from `w0` to `w1`, and is at most `w0 (w0 - w1)`. -/
theorem C92_clpso_false (fn : Fn → Fl → Fl) (p : CPar D) (w0 w1 : ℚ) (h0 : p.w0 = .fin w0) (h1 : p.w1 = .fin w1) (hw : w1 < w0) (hpw : 0 < w0)
    (v : TaskView) (T : ℕ) (hT : v.maxIters = some T) (hlt : v.iters < T) :
    letI := exactArith fn
    inertiaC p v = .fin (w0 * (w0 - w1) * ((v.iters + 1) / T)) ∧ inertiaC p v ≤ .fin (w0 * (w0 - w1)) ∧
      ∀ v' : TaskView, v'.maxIters = some T → v.iters < v'.iters → inertiaC p v < inertiaC p v' := by
  have hpos : 0 < T := by omega
  have hT' : (0 : ℚ) < T := by exact_mod_cast hpos
  have key : ∀ u : TaskView, u.maxIters = some T → @inertiaC (exactArith fn) D p u = .fin (w0 * (w0 - w1) * ((u.iters + 1) / T)) := fun u hu => by
    unfold inertiaC
    rw [hu, h0, h1]
    simp only [Exact.ofNat_fin, Exact.sub_fin, Exact.mul_fin, Exact.div_some fn _ hpos, Fl.fin.injEq]
    push_cast
    ring
  have hle : ((v.iters : ℚ) + 1) / T ≤ 1 := (div_le_one hT').2 (by exact_mod_cast hlt)
  have hp : 0 < w0 * (w0 - w1) := mul_pos hpw (by linarith)
  refine ⟨key v hT, ?_, fun v' h' hlt' => ?_⟩
  · rw [key v hT, Fl.fin_le_fin]
    exact mul_le_of_le_one_right hp.le hle
  · rw [key v hT, key v' h', Fl.fin_lt_fin]
    exact mul_lt_mul_of_pos_left ((div_lt_div_iff_of_pos_right hT').2 (by exact_mod_cast Nat.succ_lt_succ hlt')) hp

omit [Arith] in
/-- With the default weights 0.9 and 0.4 the inertia weight is below both for most of the run: at most 0.45, and below `w1 = 0.4` for the first 8/9. -/
theorem C92_clpso_default_false (fn : Fn → Fl → Fl) (p : CPar D) (h0 : p.w0 = .fin (9 / 10)) (h1 : p.w1 = .fin (4 / 10)) (v : TaskView) (T : ℕ)
    (hT : v.maxIters = some T) (hlt : 9 * (v.iters + 1) < 8 * T) : letI := exactArith fn; inertiaC p v < p.w1 := by
  have hT' : (0 : ℚ) < T := by exact_mod_cast (by omega : 0 < T)
  have h := (C92_clpso_false fn p _ _ h0 h1 (by norm_num) (by norm_num) v T hT (by omega)).1
  rw [h, h1, Fl.fin_lt_fin]
  have : ((v.iters : ℚ) + 1) / T < 8 / 9 := by
    rw [div_lt_div_iff₀ hT' (by norm_num)]
    have : (9 * (v.iters + 1) : ℚ) < 8 * T := by exact_mod_cast hlt
    linarith
  nlinarith

omit [Arith] in
/-- Without a limit on the iterations it is 0. -/
theorem C92_clpso_none_false (fn : Fn → Fl → Fl) (p : CPar D) (w0 w1 : ℚ) (h0 : p.w0 = .fin w0) (h1 : p.w1 = .fin w1) (v : TaskView)
    (hT : v.maxIters = none) : letI := exactArith fn; inertiaC p v = .fin 0 := by
  unfold inertiaC
  rw [hT, h0, h1]
  simp only [Exact.ofNat_fin, Exact.sub_fin, Exact.mul_fin, Exact.div_none]

example : letI := Ex.arith; inertiaC (D := 1) ⟨exPar, 10, .fin (9 / 10), .fin (4 / 10), .fin 100⟩ ⟨0, 0, some 10, none, false⟩ = .fin (9 / 200) := by
  decide +kernel

end NiaPy.PSO
