import Verif.Steps
import Verif.RepairProps

/-!
# Particle swarm optimization (`niapy/algorithms/basic/pso.py`), with C34

All eight classes. `ParticleSwarmOptimization` is `ParticleSwarmAlgorithm` with weight 1 and infinite velocity bounds;
`CenterParticleSwarmOptimization`, `MutatedParticleSwarmOptimization`, `MutatedCenterParticleSwarmOptimization` and
`MutatedCenterUnifiedParticleSwarmOptimization` are the same loop followed by the evaluation of the center and by mutations
of the best solution. The function that repairs velocities (`self.repair`, by default `reflect`) is an arbitrary function;
that it could itself draw random numbers (`rand`, from a fresh generator, as it is called without one) is not modelled.
-/

namespace NiaPy.PSO
open NiaPy
variable [Arith] {D N : ℕ}

/-- Parameters (pso.py:84-118): `w`, `min_velocity` and `max_velocity` after `full_array`. -/
structure Par (D : ℕ) where
  c1 : Fl
  c2 : Fl
  w : Vec D
  vmin : Vec D
  vmax : Vec D
  /-- `self.repair`: velocity, lower bounds, upper bounds -/
  rep : Vec D → Vec D → Vec D → Vec D

/-- State of a run (pso.py:162-188). -/
structure St (D N : ℕ) where
  pop : Fin N → Vec D
  fit : Fin N → Fl
  pb : Fin N → Vec D
  pbf : Fin N → Fl
  v : Fin N → Vec D

/-- A velocity update: old velocity, position, personal best, global best. -/
abbrev Vel (D : ℕ) := Vec D → Vec D → Vec D → Vec D → Prog (Vec D) (Vec D)

/-- `update_velocity` (pso.py:190-210) with weight `w` and velocity bounds `lo` and `hi`. -/
def vel (p : Par D) (w lo hi : Vec D) : Vel D := fun v x pb gb => do
  let r1 ← randVec D
  let r2 ← randVec D
  return p.rep (fun j => w j * v j + p.c1 * r1 j * (pb j - x j) + p.c2 * r2 j * (gb j - x j)) lo hi

/-- `update_velocity` of the unified variant (pso.py:918-940). -/
def velU (p : Par D) (w lo hi : Vec D) : Vel D := fun v x pb gb => do
  let r3 ← randVec D
  let r1 ← randVec D
  let r2 ← randVec D
  return p.rep (fun j => w j * v j + p.c1 * r1 j * (pb j - x j) * r3 j + p.c2 * r2 j * (gb j - x j) * (Fl.ofNat 1 - r3 j)) lo hi

/-- A particle has been evaluated: fitness and personal best (pso.py:252-254; 542-544; 1156-1157). -/
def St.record (s : St D N) (i : Fin N) (v x : Vec D) (f : Fl) : St D N where
  pop := Function.update s.pop i x
  fit := Function.update s.fit i f
  pb := Function.update s.pb i (if f < s.pbf i then x else s.pb i)
  pbf := Function.update s.pbf i (if f < s.pbf i then f else s.pbf i)
  v := Function.update s.v i v

/-- The global best after an evaluation: compared with every particle (pso.py:255-256) or, if `nested`, only with those that
improve their personal best (pso.py:545-546). -/
def global (nested : Bool) (pbf : Fl) (x : Vec D) (f : Fl) (xb : Vec D) (fxb : Fl) : Vec D × Fl :=
  if nested = true ∧ ¬ f < pbf then (xb, fxb) else betterLt x f xb fxb

/-- One particle (pso.py:250-256; 540-546). -/
def particle (vel : Vel D) (nested : Bool) (i : Fin N) (s : St D N × Vec D × Fl) : Prog (Vec D) (St D N × Vec D × Fl) := do
  let v ← vel (s.1.v i) (s.1.pop i) (s.1.pb i) s.2.1
  let x ← Prog.repair fun j => s.1.pop i j + v j
  let f ← Prog.eval x
  return (s.1.record i v x f, global nested (s.1.pbf i) x f s.2.1 s.2.2)

/-- The loop over the particles (pso.py:249-256; 539-546). -/
def swarm (vel : Vel D) (nested : Bool) (s : St D N) (xb : Vec D) (fxb : Fl) : Prog (Vec D) (St D N × Vec D × Fl) :=
  forFin N (particle vel nested) (s, xb, fxb)

/-- `init_population` (pso.py:141-188). -/
def init (B : Box D) (N : ℕ) : Prog (Vec D) (St D N) := do
  let (pop, fit) ← defaultNumpyInit B N
  return ⟨pop, fit, pop, fit, fun _ _ => Fl.fin 0⟩

/-- The mean of some rows (pso.py:647, 756, 867). -/
def mean (rows : Fin N → Vec D) : Vec D := fun j => vsum (fun i => rows i j) / Fl.ofNat N

/-- The center particle (pso.py:647-650), if `c`. -/
def center (c : Bool) (s : St D N) (xb : Vec D) (fxb : Fl) : Prog (Vec D) (Vec D × Fl) :=
  if c then do
    let fc ← Prog.eval (mean s.pop)
    return if fc ≤ fxb then (mean s.pop, fc) else (xb, fxb)
  else return (xb, fxb)

/-- Direction of the mutations (pso.py:756-757, 867-868); `np.max` propagates NaN. -/
def direction (s : St D N) : Vec D :=
  let va := mean s.v
  let m := (List.ofFn fun j => Fl.abs (va j)).foldl Fl.npMax (Fl.fin 0)
  fun j => va j / m

/-- One mutation (pso.py:759-762, 870-873). -/
def mutation (B : Box D) (va : Vec D) (b : Vec D × Fl) : Prog (Vec D) (Vec D × Fl) := do
  let u ← unifVec B.lo B.hi
  let x ← Prog.repair fun j => b.1 j + va j * u j
  let f ← Prog.eval x
  return if f ≤ b.2 then (x, f) else b

/-- `run_iteration` of `ParticleSwarmAlgorithm` (pso.py:212-258), followed by the center particle if `c` (pso.py:623-651) and
by `m` mutations (pso.py:731-763, 842-874). -/
def iter (B : Box D) (vel : Vel D) (c : Bool) (m : ℕ) (s : St D N) (xb : Vec D) (fxb : Fl) :
    Prog (Vec D) (St D N × Vec D × Fl) := do
  let (s', xb, fxb) ← swarm vel false s xb fxb
  let (xb, fxb) ← center c s' xb fxb
  let (xb, fxb) ← forFin m (fun _ => mutation B (direction s')) (xb, fxb)
  return (s', xb, fxb)

/-- The classes without opposition and comprehensive learning: `ParticleSwarmAlgorithm` and `ParticleSwarmOptimization`
(`u = c = false`, `m = 0`), CPSO (`c`), MPSO (`m`), MCPSO (`c`, `m`) and MCUPSO (`u`, `c`, `m`). -/
def alg (B : Box D) (N : ℕ) (p : Par D) (u c : Bool) (m : ℕ) : Alg (Vec D) where
  σ := St D N
  init := init B N
  pop s := List.ofFn s.pop
  fit s := List.ofFn s.fit
  iter := iter B ((if u then velU else vel) p p.w p.vmin p.vmax) c m

/-! ## Proofs -/

variable {C : Ctx (Vec D)} {g : Ghost (Vec D)} {B : Box D}

theorem vel_quiet (p : Par D) (w lo hi v x pb gb : Vec D) : Quiet C (vel p w lo hi v x pb gb) := by
  unfold vel; yields

theorem velU_quiet (p : Par D) (w lo hi v x pb gb : Vec D) : Quiet C (velU p w lo hi v x pb gb) := by
  unfold velU; yields

/-- A velocity update draws numbers only. -/
def QuietVel (f : Vel D) : Prop := ∀ (C : Ctx (Vec D)) v x pb gb, Quiet C (f v x pb gb)

theorem quiet_vel (p : Par D) (w lo hi : Vec D) : QuietVel (vel p w lo hi) := fun _ _ _ _ _ => vel_quiet ..

theorem quiet_velU (p : Par D) (w lo hi : Vec D) : QuietVel (velU p w lo hi) := fun _ _ _ _ _ => velU_quiet ..

theorem quiet_velOf (u : Bool) (p : Par D) (w lo hi : Vec D) : QuietVel ((if u then velU else vel) p w lo hi) := by
  cases u
  · exact quiet_vel p w lo hi
  · exact quiet_velU p w lo hi

/-- Invariant of the swarm. -/
structure Swarm (C : Ctx (Vec D)) (b : Fl) (s : St D N) : Prop where
  good : ∀ i, C.G (s.pop i)
  fit : ∀ i, C.Fit b (s.pop i) (s.fit i)
  best : ∀ i, C.Fit b (s.pb i) (s.pbf i)

theorem Swarm.mono {b b' : Fl} {s : St D N} (h : Swarm C b s) (hb : Below b' b) : Swarm C b' s :=
  ⟨h.good, fun i => (h.fit i).mono hb, fun i => (h.best i).mono hb⟩

omit [Arith] in
theorem best_record {b : Fl} {s : St D N} (h : ∀ i, C.Fit b (s.pb i) (s.pbf i)) (i : Fin N) (v : Vec D) {x : Vec D} {f : Fl}
    (hf : C.Fit b x f) (j : Fin N) : C.Fit b ((s.record i v x f).pb j) ((s.record i v x f).pbf j) := by
  by_cases hj : j = i
  · subst hj
    simp only [St.record, Function.update_self]
    split
    · exact hf
    · exact h j
  · simpa [St.record, hj] using h j

omit [Arith] in
theorem Swarm.record {b : Fl} {s : St D N} (h : Swarm C b s) (i : Fin N) (v : Vec D) {x : Vec D} {f : Fl} (hG : C.G x)
    (hf : C.Fit b x f) : Swarm C b (s.record i v x f) := by
  refine ⟨fun j => ?_, aligned_update h.fit i hf, best_record h.best i v hf⟩
  by_cases hj : j = i
  · subst hj; simpa [St.record] using hG
  · simpa [St.record, hj] using h.good j

omit [Arith] in
/-- Comparing with the global best only when the personal best improves is enough, as the global best is at least as good
as all personal bests. -/
theorem Inc.global {xb x pb : Vec D} {fxb f pbf : Fl} (h : Inc C xb fxb g) (hpb : C.Fit g.b pb pbf) (hf : C.F x f) (nested : Bool) :
    Inc C (PSO.global nested pbf x f xb fxb).1 (PSO.global nested pbf x f xb fxb).2 (g.eval f) := by
  unfold PSO.global
  split
  · rename_i hn
    refine h.keep fun hnn => ?_
    exact Fl.le_trans (h.le_fit hpb hnn) (Fl.le_of_not_lt (hnn _ _ hf) (hnn _ _ hpb.1) hn.2)
  · exact h.betterLt hf

theorem wp_particle {f : Vel D} (hv : QuietVel f) (nested : Bool) (i : Fin N) {s : St D N × Vec D × Fl} (hs : Swarm C g.b s.1)
    (hinc : Inc C s.2.1 s.2.2 g) :
    (particle f nested i s).wp C (fun r g' => Swarm C g'.b r.1 ∧ Inc C r.2.1 r.2.2 g' ∧ g'.c = g.c + 1) g := by
  simp only [particle, Prog.wp_bind']
  refine (hv C ..).wp fun v _ => ?_
  refine Yields.repair.wp fun x hx => ?_
  rw [Prog.wp_eval]
  refine ⟨hx, fun u hu => ?_⟩
  exact ⟨(hs.mono (g.eval_below u)).record i v hx (.new hu), Inc.global hinc (hs.best i) hu nested, rfl⟩

theorem wp_swarm {f : Vel D} (hv : QuietVel f) (nested : Bool) {s : St D N} {xb : Vec D} {fxb : Fl} (hs : Swarm C g.b s)
    (hinc : Inc C xb fxb g) :
    (swarm f nested s xb fxb).wp C (fun r g' => Swarm C g'.b r.1 ∧ Inc C r.2.1 r.2.2 g' ∧ g'.c = g.c + N) g := by
  unfold swarm
  refine Prog.wp_mono (fun r g' h => h) (wp_forFin (fun k (r : St D N × Vec D × Fl) g' =>
    Swarm C g'.b r.1 ∧ Inc C r.2.1 r.2.2 g' ∧ g'.c = g.c + k) ⟨hs, hinc, rfl⟩ ?_)
  intro i r g' h
  exact Prog.wp_mono (fun r' g2 h' => ⟨h'.1, h'.2.1, by rw [h'.2.2, h.2.2]; omega⟩) (wp_particle hv nested i h.1 h.2.1)

/-- The center of allowed points is allowed. -/
def CenterOK (N : ℕ) (C : Ctx (Vec D)) : Prop := ∀ rows : Fin N → Vec D, (∀ i, C.G (rows i)) → C.G (mean rows)

theorem wp_center {c : Bool} (hc : c = true → CenterOK N C) {s : St D N} {xb : Vec D} {fxb : Fl} (hs : Swarm C g.b s)
    (hinc : Inc C xb fxb g) :
    (center c s xb fxb).wp C (fun r g' => Swarm C g'.b s ∧ Inc C r.1 r.2 g' ∧ g'.c = g.c + c.toNat) g := by
  unfold center
  cases c with
  | false => exact ⟨hs, hinc, rfl⟩
  | true =>
    simp only [if_true, Prog.wp_bind', Prog.wp_eval]
    exact ⟨hc rfl _ hs.good, fun u hu => ⟨hs.mono (g.eval_below u), hinc.leq hu, rfl⟩⟩

theorem wp_mutations (va : Vec D) (m : ℕ) {s : St D N} {xb : Vec D} {fxb : Fl} (hs : Swarm C g.b s) (hinc : Inc C xb fxb g) :
    (forFin m (fun _ => mutation B va) (xb, fxb)).wp C (fun r g' => Swarm C g'.b s ∧ Inc C r.1 r.2 g' ∧ g'.c = g.c + m) g := by
  refine wp_forFin (fun k (r : Vec D × Fl) g' => Swarm C g'.b s ∧ Inc C r.1 r.2 g' ∧ g'.c = g.c + k) ⟨hs, hinc, rfl⟩ ?_
  intro i r g' h
  simp only [mutation, Prog.wp_bind']
  refine Yields.wp (P := fun _ => True) (by yields) fun u _ => ?_
  refine Yields.repair.wp fun x hx => ?_
  rw [Prog.wp_eval]
  refine ⟨hx, fun v hv => ⟨h.1.mono (g'.eval_below v), h.2.1.leq hv, ?_⟩⟩
  have := h.2.2
  simp only [Ghost.eval]
  omega

theorem wp_iter {f : Vel D} (hv : QuietVel f) {c : Bool} (hc : c = true → CenterOK N C) (m : ℕ) {s : St D N} {xb : Vec D} {fxb : Fl}
    (hs : Swarm C g.b s) (hinc : Inc C xb fxb g) :
    (iter B f c m s xb fxb).wp C (fun r g' => Swarm C g'.b r.1 ∧ Inc C r.2.1 r.2.2 g' ∧ g'.c = g.c + (N + c.toNat + m)) g := by
  simp only [iter, Prog.wp_bind']
  refine Prog.wp_mono (fun r1 g1 h1 => ?_) (wp_swarm hv false hs hinc)
  refine Prog.wp_mono (fun r2 g2 h2 => ?_) (wp_center hc h1.1 h1.2.1)
  refine Prog.wp_mono (fun r3 g3 h3 => ?_) (wp_mutations _ m h2.1 h2.2.1)
  exact ⟨h3.1, h3.2.1, by rw [h3.2.2, h2.2.2, h1.2.2]; omega⟩

omit [Arith] in
theorem wp_init (hG : ∀ x, B.Mem x → C.G x) (hg : g.b = .pinf) :
    (init B N).wp C (fun s g' => Swarm C g'.b s ∧ s.pb = s.pop ∧ s.pbf = s.fit ∧ Cov C (· ∈ List.ofFn s.fit) g' ∧ g'.c = g.c + N) g := by
  simp only [init, Prog.wp_bind']
  exact wp_initArr hG hg fun r g' _ h2 h3 h4 h5 => ⟨⟨fun i => hG _ (h2 i), h3, h3⟩, rfl, rfl, h4, h5⟩

/-- The obligations of these classes. -/
theorem verified (B : Box D) (N : ℕ) (p : Par D) (u c : Bool) (m : ℕ) :
    VerifiedIf (fun C => c = true → CenterOK N C) (alg B N p u c m) B.Mem true true (.exact N (N + c.toNat + m)) := by
  refine ⟨fun C (s : St D N) b => Swarm C b s, fun C hC hG _ _ => AlgOK.toW ⟨fun s b h => forall₂_ofFn h.fit, fun g hg => ?_, ?_⟩⟩
  · exact Prog.wp_mono (fun s g' h => ⟨h.1, h.2.2.2.1, h.2.2.2.2⟩) (wp_init hG hg)
  · intro s xb fxb g hI hF hc
    refine Prog.wp_mono (fun r g' h => ⟨h.1, h.2.1.fit, h.2.1.eq, Cost.ok_exact h.2.2⟩) (wp_iter (quiet_velOf u p _ _ _) hC m hI ⟨hF, hc⟩)

/-! ### C34 -/

theorem swarm_records {f : Vel D} (hv : QuietVel f) (nested : Bool) (s : St D N) (xb : Vec D) (fxb : Fl) (g : Ghost (Vec D)) :
    (swarm f nested s xb fxb).wp Ctx.any (fun r _ => ∀ i, Records (s.pb i, s.pbf i) (r.1.pop i, r.1.fit i) (r.1.pb i, r.1.pbf i)) g := by
  unfold swarm
  refine Prog.wp_mono (fun r g' h i => (h i).1 i.2) (wp_forFin (fun k (r : St D N × Vec D × Fl) _ =>
    ∀ i : Fin N, ((i : ℕ) < k → Records (s.pb i, s.pbf i) (r.1.pop i, r.1.fit i) (r.1.pb i, r.1.pbf i)) ∧
      (k ≤ (i : ℕ) → r.1.pb i = s.pb i ∧ r.1.pbf i = s.pbf i)) (fun i => ⟨fun h => by omega, fun _ => ⟨rfl, rfl⟩⟩) ?_)
  intro i r g' h
  simp only [particle, Prog.wp_bind']
  refine (hv _ _ _ _ _).wp fun v _ => ?_
  refine Yields.repair.wp fun x _ => ?_
  rw [Prog.wp_eval]
  refine ⟨trivial, fun u _ k => ?_⟩
  by_cases hk : k = i
  · subst hk
    refine ⟨fun _ => ?_, fun h => by omega⟩
    obtain ⟨h1, h2⟩ := (h k).2 (le_refl _)
    simp only [St.record, Function.update_self, h1, h2, Records]
    by_cases hu : u < s.pbf k
    · simp [hu]
    · simp [hu]
  · have hk' : (k : ℕ) ≠ (i : ℕ) := fun h => hk (Fin.ext h)
    simp only [St.record, Function.update_of_ne hk]
    exact ⟨fun hl => (h k).1 (by omega), fun hl => (h k).2 (by omega)⟩

theorem iter_records {f : Vel D} (hv : QuietVel f) (c : Bool) (m : ℕ) (s : St D N) (xb : Vec D) (fxb : Fl) (g : Ghost (Vec D)) :
    (iter B f c m s xb fxb).wp Ctx.any (fun r _ => ∀ i, Records (s.pb i, s.pbf i) (r.1.pop i, r.1.fit i) (r.1.pb i, r.1.pbf i)) g := by
  simp only [iter, Prog.wp_bind']
  refine Prog.wp_mono (fun r1 g1 h1 => ?_) (swarm_records hv false s xb fxb g)
  have h2 : (center c r1.1 r1.2.1 r1.2.2).wp Ctx.any (fun _ _ => True) g1 := by
    unfold center
    cases c
    · trivial
    · simp only [if_true, Prog.wp_bind', Prog.wp_eval]; exact ⟨trivial, fun _ _ => trivial⟩
  refine Prog.wp_mono (fun r2 g2 _ => ?_) h2
  have h3 : (forFin m (fun _ => mutation B (direction r1.1)) (r2.1, r2.2)).wp Ctx.any (fun _ _ => True) g2 := by
    refine wp_forFin' (C := Ctx.any) (fun _ _ => True) trivial fun i r g' _ => ?_
    simp only [mutation, Prog.wp_bind']
    refine Yields.wp (P := fun _ => True) (by yields) fun u _ => ?_
    refine Yields.repair.wp fun x _ => ?_
    rw [Prog.wp_eval]
    exact ⟨trivial, fun _ _ => trivial⟩
  exact Prog.wp_mono (fun _ _ _ => h1) h3

omit [Arith] in
theorem init_records (B : Box D) (N : ℕ) (g : Ghost (Vec D)) :
    (init B N).wp Ctx.any (fun s _ => (fun i => (s.pb i, s.pbf i)) = fun i => (s.pop i, s.fit i)) g := by
  simp only [init, Prog.wp_bind']
  exact Prog.wp_mono (fun _ _ _ => rfl) (wp_defaultNumpyInit (C := Ctx.any) (S := fun _ => False) (fun _ _ => trivial) fun hn => hn.trk.elim)

/-- C34: at the head of every iteration, the personal best of particle `i` is a position the particle has had, with the
fitness it had there, and no fitness value the particle has had is better. `hist` are all states so far, newest first. -/
theorem C34_personal_best (B : Box D) (N : ℕ) (p : Par D) (u c : Bool) (m : ℕ) (env : Env (Vec D)) (ncb : ℕ)
    (r : St D N × Vec D × Fl) (hist : List (St D N × Vec D × Fl)) (w : World (Vec D))
    (h : (alg B N p u c m).Trace env ncb (r :: hist) w) (i : Fin N) :
    (∃ t ∈ r :: hist, r.1.pb i = t.1.pop i ∧ r.1.pbf i = t.1.fit i) ∧ ∀ t ∈ r :: hist, ¬ t.1.fit i < r.1.pbf i := by
  have := h.records (fun (s : St D N) i => (s.pop i, s.fit i)) (fun (s : St D N) i => (s.pb i, s.pbf i))
    (fun g => init_records B N g) (fun (r : St D N × Vec D × Fl) g => iter_records (quiet_velOf u p _ _ _) c m r.1 r.2.1 r.2.2 g) i
  obtain ⟨⟨t, ht, e⟩, h2⟩ := this
  exact ⟨⟨t, ht, (Prod.mk.inj e).1, (Prod.mk.inj e).2⟩, h2⟩

/-! ### The center of the swarm -/

/-- The mean of points within the bounds is within the bounds. True of exact arithmetic (`centerLaw_exact`), not of floating
point: the mean of three times `0.1` is larger than `0.1`. -/
def CenterLaw (B : Box D) (N : ℕ) : Prop := ∀ rows : Fin N → Vec D, (∀ i, B.NotOut (rows i)) → B.NotOut (mean rows)

omit [Arith] in
theorem fold_bounds (fn : Fn → Fl → Fl) {lo hi : ℚ} (l : List Fl) (hl : ∀ v ∈ l, v = .nan ∨ ∃ q, v = .fin q ∧ lo ≤ q ∧ q ≤ hi) (a : Fl) {x y : ℚ}
    (ha : a = .nan ∨ ∃ q, a = .fin q ∧ x ≤ q ∧ q ≤ y) :
    letI := exactArith fn
    l.foldl (· + ·) a = .nan ∨ ∃ q, l.foldl (· + ·) a = .fin q ∧ x + l.length * lo ≤ q ∧ q ≤ y + l.length * hi := by
  induction l generalizing a x y with
  | nil => simpa using ha
  | cons v l ih =>
    letI := exactArith fn
    have h1 : a + v = .nan ∨ ∃ q, a + v = .fin q ∧ x + lo ≤ q ∧ q ≤ y + hi := by
      change Fl.addX a v = .nan ∨ ∃ q, Fl.addX a v = .fin q ∧ _
      rcases ha with rfl | ⟨q, rfl, h1, h2⟩
      · left; rfl
      · rcases hl v (by simp) with rfl | ⟨q', rfl, h3, h4⟩
        · left; rfl
        · right; exact ⟨_, rfl, by linarith, by linarith⟩
    rcases ih (fun v hv => hl v (by simp [hv])) (a + v) h1 with h | ⟨q, h, h2, h3⟩
    · left; exact h
    · right
      refine ⟨q, h, ?_, ?_⟩
      · push_cast [List.length_cons]; linarith
      · push_cast [List.length_cons]; linarith

omit [Arith] in
theorem centerLaw_exact (fn : Fn → Fl → Fl) (B : Box D) (N : ℕ) (hlo : ∀ i, ∃ q, B.lo i = .fin q) (hhi : ∀ i, ∃ q, B.hi i = .fin q) :
    @CenterLaw (exactArith fn) D B N := by
  letI := exactArith fn
  intro rows hr j
  obtain ⟨lo, hl⟩ := hlo j
  obtain ⟨hi, hh⟩ := hhi j
  have hle := B.le j
  rw [hl, hh] at hle ⊢
  rw [Fl.fin_le_fin] at hle
  have key := fold_bounds fn (lo := lo) (hi := hi) (List.ofFn fun i => rows i j) (fun v hv => by
    obtain ⟨i, rfl⟩ := List.mem_ofFn.1 hv
    have := hr i j
    rw [hl, hh] at this
    cases h : rows i j with
    | nan => exact Or.inl rfl
    | fin q => right; rw [h] at this; simpa using this
    | pinf => rw [h] at this; simp at this
    | ninf => rw [h] at this; simp at this) 0 (x := 0) (y := 0) (Or.inr ⟨0, rfl, by simp, by simp⟩)
  have hm : mean rows j = Fl.divX ((List.ofFn fun i => rows i j).foldl (· + ·) 0) (.fin N) := rfl
  rw [hm]
  rcases key with h | ⟨q, h, h1, h2⟩
  · rw [h]; simp [Fl.divX]
  · rw [h]
    simp only [List.length_ofFn, zero_add] at h1 h2
    rcases Nat.eq_zero_or_pos N with rfl | hN
    · simp at h1 h2
      have : q = 0 := le_antisymm h2 h1
      simp [Fl.divX, Fl.infOf, this]
    · have hN' : (0 : ℚ) < N := by exact_mod_cast hN
      simp only [Fl.divX, hN'.ne', if_false]
      simp only [Fl.fin_lt_fin, not_lt]
      constructor
      · rw [le_div_iff₀ hN']; linarith
      · rw [div_le_iff₀ hN']; linarith

/-- Examples: mutated center particle swarm optimization, three particles in two dimensions, two mutations. -/
def exAlg : Alg (Vec 2) :=
  @PSO.alg Ex.arith 2 (Ex.box 2) 3 ⟨.fin (3 / 2), .fin (3 / 2), fun _ => .fin (1 / 2), fun _ => .ninf, fun _ => .pinf, fun v _ _ => v⟩ false true 2

example : exAlg.okIters Ex.env2 1 5 = some 2 := by decide +kernel

/-- The hypotheses of C34 hold of this run, which has three states. -/
example : ∃ r hist w, exAlg.Trace Ex.env2 1 (r :: hist) w ∧ hist.length = 2 := by
  have hv := @verified Ex.arith 2 (Ex.box 2) 3
    ⟨.fin (3 / 2), .fin (3 / 2), fun _ => .fin (1 / 2), fun _ => .ninf, fun _ => .pinf, fun v _ _ => v⟩ false true 2
  obtain ⟨hist, w, h1, h2⟩ := hv.exists_trace Ex.env2 (P := fun _ => True) (sh := True) (fun C _ _ hC _ _ _ rows _ => by rw [hC]; trivial) (ncb := 1) (fuel := 5) (n := 2)
    (by decide +kernel)
  cases hist with
  | nil => cases h2
  | cons r hist => exact ⟨r, hist, w, h1, Nat.succ.inj h2⟩

example : @CenterLaw Ex.arith 2 (Ex.box 2) 3 := centerLaw_exact _ _ _ (fun _ => ⟨_, rfl⟩) fun _ => ⟨_, rfl⟩

end NiaPy.PSO
