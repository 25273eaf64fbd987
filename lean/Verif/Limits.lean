import Verif.Truncate
import Verif.Algo.PSOVariants
import Verif.Algo.SHADEProps
import Verif.Nearby

/-!
# Velocity limits, and what SHADE remembers (C119)
-/

namespace NiaPy
variable [Arith] {D N : ℕ} {env : Env (Vec D)} {B : Box D}

omit [Arith] in
/-- A loop over `Fin n` with an invariant that knows how many rounds were made. -/
theorem Post.countFin {X σ : Type} {env : Env X} {n : ℕ} {f : Fin n → σ → Prog X σ} (J : ℕ → σ → Prop) {s : σ} (h0 : J 0 s)
    (h : ∀ (i : Fin n) s, J i s → Post env (f i s) (J (i + 1))) : Post env (NiaPy.forFin n f s) (J n) := by
  induction n generalizing s J with
  | zero => exact Post.pure' (P := J 0) h0
  | succ n ih => exact Post.bind (h 0 s h0) fun a ha => ih (fun k => J (k + 1)) ha fun i s hs => h i.succ s hs

omit [Arith] in
/-- Without rounding, `reflect` does not leave finite bounds, whatever it is applied to. -/
theorem Repair.reflect_notOut (fn : Fn → Fl → Fl) (V : Box D) (hV : ∀ i, ∃ lo hi : ℚ, lo < hi ∧ V.lo i = .fin lo ∧ V.hi i = .fin hi) (x : Vec D) :
    V.NotOut (@Repair.reflect D (exactArith fn) V x) := by
  intro i
  obtain ⟨lo, hi, h, h1, h2⟩ := hV i
  cases hx : x i with
  | fin v =>
    have := C09_reflect fn (D := 1) ⟨fun _ => V.lo i, fun _ => V.hi i, fun _ => V.le i⟩ (fun _ => x i) fun _ => ⟨lo, hi, v, h, h1, h2, hx⟩
    exact inBox_notOut (this 0)
  | nan =>
    have : @Repair.reflect D (exactArith fn) V x i = .nan := by
      simp [Repair.reflect, Repair.setWhere, hx]
    rw [this]; simp
  | pinf =>
    have : @Repair.reflect D (exactArith fn) V x i = .nan := by
      letI := exactArith fn
      have e : (Fl.fin lo + Fl.pinf % (Fl.fin hi - Fl.fin lo) : Fl) = .nan := rfl
      simp [Repair.reflect, Repair.setWhere, hx, h1, h2, e]
    rw [this]; simp
  | ninf =>
    have : @Repair.reflect D (exactArith fn) V x i = .nan := by
      letI := exactArith fn
      have e : (Fl.fin lo + Fl.ninf % (Fl.fin hi - Fl.fin lo) : Fl) = .nan := rfl
      simp [Repair.reflect, Repair.setWhere, hx, h1, h2, e]
    rw [this]; simp

namespace PSO

theorem vel_post (p : Par D) {w lo hi v x pb gb : Vec D} {P : Vec D → Prop} (h : ∀ v, P (p.rep v lo hi)) : Post env (vel p w lo hi v x pb gb) P :=
  .bind' .any fun _ _ => .bind' .any fun _ _ => .pure' (h _)

theorem velU_post (p : Par D) {w lo hi v x pb gb : Vec D} {P : Vec D → Prop} (h : ∀ v, P (p.rep v lo hi)) : Post env (velU p w lo hi v x pb gb) P :=
  .bind' .any fun _ _ => .bind' .any fun _ _ => .bind' .any fun _ _ => .pure' (h _)

/-- One particle gets a new velocity and a new position, the others keep theirs. -/
theorem particle_post {f : Vel D} {P Q : Vec D → Prop} (hv : ∀ v x pb gb, Post env (f v x pb gb) P) (hx : ∀ rng k x, Q (env.repairFn rng k x)) (nested : Bool) (i : Fin N)
    (s : St D N × Vec D × Fl) : Post env (particle f nested i s) fun r => (P (r.1.v i) ∧ Q (r.1.pop i)) ∧ ∀ j, j ≠ i → r.1.v j = s.1.v j ∧ r.1.pop j = s.1.pop j := by
  refine .bind' (hv _ _ _ _) fun v h1 => .bind' (.repair fun rng k => hx rng k _) fun x h2 => .bind' .any fun u _ => .pure' ⟨?_, fun j hj => ?_⟩
  · simpa [St.record] using ⟨h1, h2⟩
  · simp [St.record, hj]

/-- After a pass over the swarm, every particle has a new velocity and a new position. -/
theorem swarm_post {f : Vel D} {P Q : Vec D → Prop} (hv : ∀ v x pb gb, Post env (f v x pb gb) P) (hx : ∀ rng k x, Q (env.repairFn rng k x)) (nested : Bool)
    (s : St D N) (xb : Vec D) (fxb : Fl) : Post env (swarm f nested s xb fxb) fun r => ∀ i, P (r.1.v i) ∧ Q (r.1.pop i) := by
  refine (Post.countFin (fun k (r : St D N × Vec D × Fl) => ∀ i : Fin N, (i : ℕ) < k → P (r.1.v i) ∧ Q (r.1.pop i)) (fun i hi => absurd hi (by omega))
    fun i r hr => (particle_post hv hx nested i r).mono fun r' h j hj => ?_).mono fun r h i => h i i.2
  by_cases hji : j = i
  · rw [hji]; exact h.1
  · rw [(h.2 j hji).1, (h.2 j hji).2]
    exact hr j (by have : (j : ℕ) ≠ i := fun e => hji (Fin.ext e); omega)

/-- C119, the classes with fixed velocity bounds (PSO, `ParticleSwarmAlgorithm`, CPSO, MPSO, MCPSO, MCUPSO): if the function that repairs
velocities respects the bounds, then throughout a run no velocity is beyond them. Velocities start at 0, which has to be within the bounds. -/
theorem C119_within {p : Par D} {V : Box D} (hlo : p.vmin = V.lo) (hhi : p.vmax = V.hi) (hrep : ∀ v, V.NotOut (p.rep v V.lo V.hi))
    (h0 : V.NotOut fun _ => .fin 0) (u c : Bool) (m : ℕ) {ncb : ℕ} {hist : List ((alg B N p u c m).σ × Vec D × Fl)} {w : World (Vec D)}
    (ht : (alg B N p u c m).Trace env ncb hist w) : ∀ r ∈ hist, ∀ i, V.NotOut (St.v (D := D) (N := N) r.1 i) := by
  refine (ht.post (P := fun r => ∀ i, V.NotOut (St.v (D := D) (N := N) r.1 i)) (R := fun _ _ => True) ?_ ?_).1
  · rintro s b ⟨w, w', hs⟩ -
    have : Post env (init B N) fun s => ∀ i, V.NotOut (s.v i) := .bind' .any fun r _ => .pure' fun _ => h0
    exact this w w' s hs
  · rintro ⟨s, xb, fxb⟩ hr
    have hv : ∀ v x pb gb, Post env ((if u then velU else vel) p p.w p.vmin p.vmax v x pb gb) V.NotOut := by
      intro v x pb gb
      rw [hlo, hhi]
      cases u
      · exact vel_post p hrep
      · exact velU_post p hrep
    exact .bind' ((swarm_post (N := N) hv (Q := fun _ => True) (fun _ _ _ => trivial) false s xb fxb)) fun r h => .bind' .any fun b _ => .bind' .any fun b' _ => .pure' ⟨fun i => (h i).1, trivial⟩

/-- C119 with the repair function that is the default, `reflect`, in exact arithmetic. -/
theorem C119_within_default (fn : Fn → Fl → Fl) {p : Par D} {V : Box D} (hlo : p.vmin = V.lo) (hhi : p.vmax = V.hi)
    (hrep : ∀ v, p.rep v V.lo V.hi = @Repair.reflect D (exactArith fn) V v)
    (hV : ∀ i, ∃ lo hi : ℚ, lo < hi ∧ V.lo i = .fin lo ∧ V.hi i = .fin hi ∧ lo ≤ 0 ∧ 0 ≤ hi) (u c : Bool) (m : ℕ) {ncb : ℕ}
    {hist : List ((@alg (exactArith fn) D B N p u c m).σ × Vec D × Fl)} {w : World (Vec D)} (ht : (@alg (exactArith fn) D B N p u c m).Trace env ncb hist w) :
    ∀ r ∈ hist, ∀ i, V.NotOut (St.v (D := D) (N := N) r.1 i) :=
  letI := exactArith fn
  C119_within hlo hhi (fun v => by
    rw [hrep]
    exact Repair.reflect_notOut fn V (fun i => by obtain ⟨lo, hi, h, h1, h2, -⟩ := hV i; exact ⟨lo, hi, h, h1, h2⟩) v) (fun i => by
    obtain ⟨lo, hi, -, h1, h2, h3, h4⟩ := hV i
    rw [h1, h2]
    simpa using ⟨h3, h4⟩) u c m ht

omit [Arith] in
theorem update_notOut {V : Box D} {f : Fin N → Vec D} (hf : ∀ j, V.NotOut (f j)) (i : Fin N) {v : Vec D} (hv : V.NotOut v) (j : Fin N) : V.NotOut (Function.update f i v j) := by
  by_cases hj : j = i
  · subst hj; simpa using hv
  · simpa [hj] using hf j

/-- C119, `ComprehensiveLearningParticleSwarmOptimizer`: the same. -/
theorem C119_within_learning {p : CPar D} {V : Box D} (hlo : p.base.vmin = V.lo) (hhi : p.base.vmax = V.hi) (hrep : ∀ v, V.NotOut (p.base.rep v V.lo V.hi))
    (h0 : V.NotOut fun _ => .fin 0) {ncb : ℕ} {hist : List ((algC B N p).σ × Vec D × Fl)} {w : World (Vec D)} (ht : (algC B N p).Trace env ncb hist w) :
    ∀ r ∈ hist, ∀ i, V.NotOut ((r.1 : CSt D N).sw.v i) := by
  refine (ht.post (P := fun r => ∀ i, V.NotOut ((r.1 : CSt D N).sw.v i)) (R := fun _ _ => True) ?_ ?_).1
  · rintro s b ⟨w, w', hs⟩ -
    have : Post env (initC B N) fun s => ∀ i, V.NotOut (s.sw.v i) := by
      refine .bind' (P := fun s => ∀ i, V.NotOut (s.v i)) (.bind' .any fun r _ => .pure' fun _ => h0) fun s hs => ?_
      split
      · exact .bind' .any fun _ _ => .pure' hs
      · exact .pure' hs
    exact this w w' s hs
  · rintro ⟨s, xb, fxb⟩ hr
    refine .bind' .any fun t _ => (Post.eachFin (fun r : CSt D N × Vec D × Fl => ∀ i, V.NotOut (r.1.sw.v i)) hr fun i r hr => ?_).mono fun r h => ⟨h, trivial⟩
    refine .bind' (P := fun r : CSt D N × Vec D × Fl => ∀ i, V.NotOut (r.1.sw.v i)) ?_ fun r1 h1 => ?_
    · refine LOA.Post.ite (fun _ => ?_) fun _ => .pure' hr
      refine .bind' (particle_post (P := V.NotOut) (Q := fun _ => True) (fun v x pb gb => ?_) (fun _ _ _ => trivial) true i _) fun r1 h1 => .pure' fun j => ?_
      · rw [hlo, hhi]; exact vel_post _ hrep
      · by_cases hj : j = i
        · rw [hj]; exact h1.1.1
        · change V.NotOut (r1.1.v j)
          rw [(h1.2 j hj).1]; exact hr j
    · refine .bind' .any fun pb _ => .bind' (P := V.NotOut) (.bind' .any fun _ _ => .pure' (by rw [hlo, hhi]; exact hrep _)) fun v hv => ?_
      refine LOA.Post.ite (fun _ => .bind' .any fun u _ => .pure' ?_) fun _ => .pure' ?_
      · exact update_notOut h1 i hv
      · exact update_notOut h1 i hv

/-- Velocities within [-1, 1]. -/
def exLimits : Box 1 := ⟨fun _ => .fin (-1), fun _ => .fin 1, fun _ => by decide +kernel⟩

def exClamp (rep : Vec 1 → Vec 1 → Vec 1 → Vec 1) : Par 1 := ⟨.fin 2, .fin 2, fun _ => .fin (1 / 2), exLimits.lo, exLimits.hi, rep⟩

/-- The hypotheses of C119_within hold of `limit` as the function that repairs velocities, and there are runs with it. -/
example : (∀ v, exLimits.NotOut ((exClamp fun v lo hi j => Repair.clip (v j) (lo j) (hi j)).rep v exLimits.lo exLimits.hi)) ∧ exLimits.NotOut (fun _ => .fin 0) :=
  ⟨fun v => (Repair.C09_limit exLimits v).1, by decide +kernel⟩
example : (@alg Ex.arith 1 (Ex.box 1) 3 (exClamp fun v lo hi j => Repair.clip (v j) (lo j) (hi j)) false false 0).okIters Ex.env2 1 5 = some 2 := by decide +kernel
example : (@alg Ex.arith 1 (Ex.box 1) 3 (exClamp fun v _ _ => @Repair.reflect 1 Ex.arith exLimits v) true true 1).okIters Ex.env2 1 5 = some 2 := by decide +kernel
example : (@algC Ex.arith 1 (Ex.box 1) 3 ⟨exClamp fun v lo hi j => Repair.clip (v j) (lo j) (hi j), 10, .fin (9 / 10), .fin (4 / 10), .fin 100⟩).okIters Ex.env2 1 5 = some 2 := by
  decide +kernel
example : ∀ i, ∃ lo hi : ℚ, lo < hi ∧ exLimits.lo i = .fin lo ∧ exLimits.hi i = .fin hi ∧ lo ≤ 0 ∧ 0 ≤ hi := fun _ => ⟨-1, 1, by norm_num, rfl, rfl, by norm_num, by norm_num⟩

/-! ### Opposition-based velocity clamping -/

/-- C119 fails of `OppositionVelocityClampingParticleSwarmOptimization`: in the beginning of every run the largest velocity is below the
smallest one, and 0, the velocity of all particles, is above the largest and below the smallest. (Exact arithmetic, positive `sigma`.) -/
theorem C119_ovc_false [ExactOps] {p : OPar D} {σ : ℚ} (hp : p.sigma = .fin σ) (hσ : 0 < σ) {j : Fin D} {l h : ℚ} (hl : B.lo j = .fin l) (hh : B.hi j = .fin h)
    (hlt : l < h) : Post env (initO B N p) fun s => s.vmax j < .fin 0 ∧ .fin 0 < s.vmin j ∧ ∀ i, s.sw.v i j = .fin 0 := by
  refine .bind' (P := fun s => ∀ i, s.v i j = .fin 0) (.bind' .any fun r _ => .pure' fun _ => rfl) fun s hs => .bind' .any fun l' _ => .pure' ⟨?_, ?_, hs⟩
  · change p.sigma * (B.lo j - B.hi j) < .fin 0
    rw [hp, hl, hh, ExactOps.sub_fin, ExactOps.mul_fin, Fl.fin_lt_fin]
    nlinarith
  · change .fin 0 < p.sigma * (B.hi j - B.lo j)
    rw [hp, hl, hh, ExactOps.sub_fin, ExactOps.mul_fin, Fl.fin_lt_fin]
    nlinarith

omit [Arith] in
theorem foldl_npMin {v : List Fl} {l a : ℚ} (hv : ∀ x ∈ v, ∃ q : ℚ, x = .fin q ∧ l ≤ q) (ha : l ≤ a) :
    ∃ m : ℚ, v.foldl Fl.npMin (.fin a) = .fin m ∧ l ≤ m ∧ m ≤ a := by
  induction v generalizing a with
  | nil => exact ⟨a, rfl, ha, le_rfl⟩
  | cons x v ih =>
    obtain ⟨q, rfl, hq⟩ := hv x (by simp)
    simp only [List.foldl_cons]
    by_cases h : q < a
    · obtain ⟨m, h1, h2, h3⟩ := ih (fun x hx => hv x (by simp [hx])) hq
      exact ⟨m, by simpa [Fl.npMin, h] using h1, h2, by linarith⟩
    · obtain ⟨m, h1, h2, h3⟩ := ih (fun x hx => hv x (by simp [hx])) ha
      exact ⟨m, by simpa [Fl.npMin, h] using h1, h2, h3⟩

omit [Arith] in
theorem foldl_npMax {v : List Fl} {l a : ℚ} (hv : ∀ x ∈ v, ∃ q : ℚ, x = .fin q ∧ l ≤ q) : ∃ m : ℚ, v.foldl Fl.npMax (.fin a) = .fin m ∧ a ≤ m := by
  induction v generalizing a with
  | nil => exact ⟨a, rfl, le_rfl⟩
  | cons x v ih =>
    obtain ⟨q, rfl, hq⟩ := hv x (by simp)
    simp only [List.foldl_cons]
    by_cases h : a < q
    · obtain ⟨m, h1, h2⟩ := ih (fun x hx => hv x (by simp [hx])) (a := q)
      exact ⟨m, by simpa [Fl.npMax, h] using h1, by linarith⟩
    · obtain ⟨m, h1, h2⟩ := ih (fun x hx => hv x (by simp [hx])) (a := a)
      exact ⟨m, by simpa [Fl.npMax, h] using h1, h2⟩

omit [Arith] in
/-- The smallest and the largest value of a column with finite entries. -/
theorem columns {rows : Fin N → Vec D} (hN : 0 < N) {j : Fin D} {l : ℚ} (h : ∀ i, ∃ q : ℚ, rows i j = .fin q ∧ l ≤ q) :
    ∃ m M : ℚ, colMin rows j = .fin m ∧ colMax rows j = .fin M ∧ l ≤ m ∧ m ≤ M := by
  obtain ⟨n, rfl⟩ : ∃ n, N = n + 1 := ⟨N - 1, by omega⟩
  obtain ⟨q, hq, hlq⟩ := h 0
  have hv : ∀ x ∈ List.ofFn fun i : Fin n => rows i.succ j, ∃ q : ℚ, x = .fin q ∧ l ≤ q := fun x hx => by
    obtain ⟨i, rfl⟩ := List.mem_ofFn.1 hx
    exact h _
  obtain ⟨m, h1, h2, h3⟩ := foldl_npMin hv hlq
  obtain ⟨M, h4, h5⟩ := foldl_npMax hv (a := q)
  refine ⟨m, M, ?_, ?_, h2, by linarith⟩
  · simp only [colMin, List.ofFn_succ, List.foldl_cons, hq]
    simpa [Fl.npMin] using h1
  · simp only [colMax, List.ofFn_succ, List.foldl_cons, hq]
    simpa [Fl.npMax] using h4

/-- Limits between which there are only positive velocities -/
def Upwards (s : OSt D N) (j : Fin D) : Prop := ∃ a b : ℚ, s.vmin j = .fin a ∧ s.vmax j = .fin b ∧ 0 < a ∧ a ≤ b

/-- C119, what is left for OVCPSO: between two states either the opposites were learned, which changes neither velocities nor limits; or the
particles moved. Then, if a coordinate is positive in the whole search space, the limits of the velocity in this coordinate are positive
afterwards, and if they were before, the new velocities are positive: all particles move away from the origin. (Missing: velocities within
limits that contain 0.) -/
theorem C119_ovc_partial [ExactOps] (hN : 0 < N) {p : OPar D} {σ : ℚ} (hp : p.sigma = .fin σ) (hσ : 0 < σ) {j : Fin D} {l : ℚ} (hl : 0 < l)
    (hrepair : ∀ rng k x, ∃ q : ℚ, env.repairFn rng k x j = .fin q ∧ l ≤ q)
    (hrep : ∀ v lo hi : Vec D, lo j ≤ hi j → ¬ p.base.rep v lo hi j < lo j ∧ ¬ hi j < p.base.rep v lo hi j) {ncb : ℕ}
    {hist : List ((algO B N p).σ × Vec D × Fl)} {w : World (Vec D)} (ht : (algO B N p).Trace env ncb hist w) :
    hist.IsChain fun r' r => ((r'.1 : OSt D N).sw.v = (r.1 : OSt D N).sw.v ∧ (r'.1 : OSt D N).vmin = (r.1 : OSt D N).vmin ∧ (r'.1 : OSt D N).vmax = (r.1 : OSt D N).vmax) ∨
      Upwards (N := N) r'.1 j ∧ (Upwards (N := N) r.1 j → ∀ i, ¬ (r'.1 : OSt D N).sw.v i j ≤ .fin 0) := by
  refine ht.link fun r => ?_
  obtain ⟨s, xb, fxb⟩ := r
  refine .bind' .any fun q _ => ?_
  refine LOA.Post.ite (fun _ => ?_) fun _ => ?_
  · refine .bind' .any fun l' _ => ?_
    cases l' with
    | nil => exact LOA.Post.throw
    | cons e l' => exact .pure' (.inl ⟨rfl, rfl, rfl⟩)
  · refine .bind' .any fun t _ => .bind' (swarm_post (P := fun v => Upwards (N := N) s j → ¬ v j ≤ .fin 0) (Q := fun x => ∃ q : ℚ, x j = .fin q ∧ l ≤ q) (fun v x pb gb => vel_post _ fun v hU => ?_)
      (fun rng k x => hrepair rng k x) true s.sw xb fxb) fun r h => .pure' (.inr ⟨?_, fun hU i => (h i).1 hU⟩)
    · obtain ⟨a, b, ha, hb, h0, hab⟩ := hU
      have := (hrep v s.vmin s.vmax (by rw [ha, hb]; simpa using hab)).1
      rw [ha] at this
      intro hle
      exact this (Fl.lt_of_le_of_lt hle (by simpa using h0))
    · obtain ⟨m, M, h1, h2, h3, h4⟩ := columns hN fun i => (h i).2
      refine ⟨σ * m, σ * M, ?_, ?_, by nlinarith, by nlinarith⟩
      · change p.sigma * colMin _ j = _
        rw [hp, h1, ExactOps.mul_fin]
      · change p.sigma * colMax _ j = _
        rw [hp, h2, ExactOps.mul_fin]

/-- A task on [1, 5], and OVCPSO with velocities clipped to the limits. -/
def exShift : Box 1 := ⟨fun _ => .fin 1, fun _ => .fin 5, fun _ => by decide +kernel⟩

def exUp : OPar 1 := ⟨exClamp fun v lo hi j => Repair.clip (v j) (lo j) (hi j), .fin 0, .fin (1 / 2), .fin 1, .fin (1 / 10)⟩

/-- The hypotheses of C119_ovc_partial hold of clipping, and there are runs of OVCPSO in this box. -/
example (v lo hi : Vec 1) (h : lo 0 ≤ hi 0) : ¬ exUp.base.rep v lo hi 0 < lo 0 ∧ ¬ hi 0 < exUp.base.rep v lo hi 0 := Repair.clip_notOut h
example : (@algO Ex.arith 1 exShift 3 exUp).okIters { Ex.env2 with repairFn := fun _ _ _ _ => .fin 2 } 0 5 = some 2 := by decide +kernel

end PSO

namespace SHADE

theorem sums_btw (hA : ExactArith) (sel : Succ → Fl) {l : List Succ} (hne : l ≠ []) (hd : ∀ s ∈ l, ∃ q : ℚ, 0 < q ∧ s.d = .fin q) {lo hi : ℚ} (h0 : 0 ≤ lo)
    (hv : ∀ s ∈ l, ∃ q : ℚ, sel s = .fin q ∧ lo ≤ q ∧ q ≤ hi) : ∃ a b : ℚ, sums sel l = (.fin a, .fin b) ∧ lo * b ≤ a ∧ a ≤ hi * b ∧ lo ≤ b := by
  obtain ⟨T, hT, -, hpos⟩ := total_exact hA hd 0
  have hT0 := hpos hne
  have key : ∀ (l : List Succ), (∀ s ∈ l, ∃ q : ℚ, 0 < q ∧ s.d = .fin q) → (∀ s ∈ l, ∃ q : ℚ, sel s = .fin q ∧ lo ≤ q ∧ q ≤ hi) → ∀ a b t : ℚ, lo * b ≤ a → a ≤ hi * b → lo * t / T ≤ b →
      ∃ a' b' t' : ℚ, l.foldl (fun a s => (a.1 + s.d / Fl.fin T * sel s * sel s, a.2 + s.d / Fl.fin T * sel s)) (Fl.fin a, Fl.fin b) =
        (.fin a', .fin b') ∧ l.foldl (fun a s => a + s.d) (.fin t) = .fin t' ∧ lo * b' ≤ a' ∧ a' ≤ hi * b' ∧ lo * t' / T ≤ b' := by
    intro l
    induction l with
    | nil => intro _ _ a b t h1 h2 h3; exact ⟨a, b, t, rfl, rfl, h1, h2, h3⟩
    | cons s l ih =>
      intro hd hv a b t h1 h2 h3
      obtain ⟨q, hq, hs⟩ := hd s (by simp)
      obtain ⟨v, hsv, hv0, hv1⟩ := hv s (by simp)
      have hw : 0 < q / T := div_pos hq hT0
      have hwv : 0 ≤ q / T * v := mul_nonneg hw.le (h0.trans hv0)
      obtain ⟨a', b', t', he, ht, h4, h5, h6⟩ := ih (fun s hs => hd s (by simp [hs])) (fun s hs => hv s (by simp [hs])) (a + q / T * v * v) (b + q / T * v) (t + q)
        (by nlinarith) (by nlinarith) (by
          have e : lo * (t + q) / T = lo * t / T + q / T * lo := by ring
          rw [e]; nlinarith)
      refine ⟨a', b', t', ?_, ?_, h4, h5, h6⟩
      · rw [List.foldl_cons]
        simp only [hs, hsv, hA.div _ _ hT0.ne', hA.mul, hA.add]
        exact he
      · rw [List.foldl_cons, hs, hA.add]
        exact ht
  obtain ⟨a, b, t, h1, ht, h2, h3, h4⟩ := key l hd hv 0 0 0 (by simp) (by simp) (by simp)
  rw [hT] at ht
  cases ht
  refine ⟨a, b, ?_, h2, h3, by rwa [mul_div_assoc, div_self hT0.ne', mul_one] at h4⟩
  unfold sums
  rw [hT]
  exact h1

/-- C119, SHADE and L-SHADE (exact arithmetic): the scale factor stored after a generation is between the smallest and the largest scale factor that
was successful. In particular, if all successful individuals had the same one, that is what is stored. ILSHADE stores the middle between this and
the previous content. -/
theorem C119_scale (hA : ExactArith) {p : Par} {l : List Succ} (hne : l ≠ []) (hd : ∀ s ∈ l, ∃ q : ℚ, 0 < q ∧ s.d = .fin q) {lo hi : ℚ} (h0 : 0 < lo)
    (hv : ∀ s ∈ l, ∃ q : ℚ, s.f = .fin q ∧ lo ≤ q ∧ q ≤ hi) (old : ℚ) :
    ∃ q : ℚ, lo ≤ q ∧ q ≤ hi ∧ memF p l (.fin old) = .fin (if p.ilEnd.isSome then (q + old) / 2 else q) := by
  obtain ⟨a, b, h1, h2, h3, h4⟩ := sums_btw hA (·.f) hne hd h0.le hv
  have hb : 0 < b := by linarith
  refine ⟨a / b, (le_div_iff₀ hb).2 h2, (div_le_iff₀ hb).2 h3, ?_⟩
  simp only [memF, h1, hA.div _ _ hb.ne']
  split
  · rw [hA.add, show Fl.ofNat 2 = Fl.fin 2 from rfl, hA.div _ _ (by norm_num)]
  · rfl

/-- C119, SHADE and L-SHADE (exact arithmetic): the crossover rate stored is between the smallest and the largest successful one, unless the memory is
marked with -1, where it stays (shade.py:448). The rates are positive here; if all are 0, the mark is stored. -/
theorem C119_crossover (hA : ExactArith) {p : Par} {l : List Succ} (hne : l ≠ []) (hd : ∀ s ∈ l, ∃ q : ℚ, 0 < q ∧ s.d = .fin q) {lo hi : ℚ} (h0 : 0 < lo)
    (hv : ∀ s ∈ l, ∃ q : ℚ, s.cr = .fin q ∧ lo ≤ q ∧ q ≤ hi) {old : ℚ} (ho : old ≠ -1) :
    ∃ q : ℚ, lo ≤ q ∧ q ≤ hi ∧ memCR p l (.fin old) = .fin (if p.ilEnd.isSome then (q + old) / 2 else q) := by
  obtain ⟨a, b, h1, h2, h3, h4⟩ := sums_btw hA (·.cr) hne hd h0.le hv
  have hb : 0 < b := by linarith
  refine ⟨a / b, (le_div_iff₀ hb).2 h2, (div_le_iff₀ hb).2 h3, ?_⟩
  have hc : ¬ (Fl.fin b = .fin 0 ∨ Fl.fin old = .fin (-1)) := by
    rintro (h | h)
    · cases h; exact hb.ne' rfl
    · cases h; exact ho rfl
  simp only [memCR, h1, if_neg hc, hA.div _ _ hb.ne']
  split
  · rw [hA.add, show Fl.ofNat 2 = Fl.fin 2 from rfl, hA.div _ _ (by norm_num)]
  · rfl

/-- A success in rational numbers: improvement, scale factor, crossover rate. -/
structure Gain where
  d : ℚ
  f : ℚ
  cr : ℚ

def Gain.succ (g : Gain) : Succ := ⟨.fin g.d, .fin g.f, .fin g.cr⟩

theorem sums_eq (hA : ExactArith) {sel : Succ → Fl} {sel' : Gain → ℚ} (hsel : ∀ g : Gain, sel g.succ = .fin (sel' g)) {l : List Gain} (hne : l ≠ []) (hd : ∀ g ∈ l, 0 < g.d) :
    sums sel (l.map Gain.succ) = (.fin ((l.map fun g => g.d * sel' g * sel' g).sum / (l.map (·.d)).sum), .fin ((l.map fun g => g.d * sel' g).sum / (l.map (·.d)).sum)) := by
  have htot : ∀ (l : List Gain) (a : ℚ), (l.map Gain.succ).foldl (fun a s => a + s.d) (.fin a) = .fin (a + (l.map (·.d)).sum) := by
    intro l
    induction l with
    | nil => intro a; simp
    | cons g l ih =>
      intro a
      rw [List.map_cons, List.foldl_cons]
      change List.foldl _ (Fl.fin a + Fl.fin g.d) _ = _
      rw [hA.add, ih, List.map_cons, List.sum_cons, add_assoc]
  have hpos : ∀ l : List Gain, l ≠ [] → (∀ g ∈ l, 0 < g.d) → 0 < (l.map (·.d)).sum := by
    intro l hne hd
    refine List.sum_pos _ (fun x hx => ?_) (by simpa using hne)
    obtain ⟨g, hg, rfl⟩ := List.mem_map.1 hx
    exact hd g hg
  have hT := hpos l hne hd
  generalize hTe : (l.map (·.d)).sum = T at hT
  have key : ∀ (l : List Gain) (a b : ℚ), (l.map Gain.succ).foldl (fun a s => (a.1 + s.d / Fl.fin T * sel s * sel s, a.2 + s.d / Fl.fin T * sel s)) (Fl.fin a, Fl.fin b) =
      (.fin (a + (l.map fun g => g.d * sel' g * sel' g).sum / T), .fin (b + (l.map fun g => g.d * sel' g).sum / T)) := by
    intro l
    induction l with
    | nil => intro a b; simp
    | cons g l ih =>
      intro a b
      rw [List.map_cons, List.foldl_cons]
      have hgd : g.succ.d = .fin g.d := rfl
      simp only [hsel, hgd, hA.div _ _ hT.ne', hA.mul, hA.add]
      rw [ih]
      simp only [List.map_cons, List.sum_cons]
      congr 2 <;> ring
  unfold sums
  have h0 := htot l 0
  rw [hTe, zero_add] at h0
  simp only [h0]
  rw [key l 0 0]
  simp

/-- C119: what SHADE and L-SHADE store is the Lehmer mean of the successful values, weighted with the improvements: the sum of `d * v * v` divided by that of `d * v`. -/
theorem C119_lehmer (hA : ExactArith) {p : Par} (hp : p.ilEnd = none) {l : List Gain} (hne : l ≠ []) (hd : ∀ g ∈ l, 0 < g.d) :
    (∀ old, (l.map fun g => g.d * g.f).sum ≠ 0 → memF p (l.map Gain.succ) old = .fin ((l.map fun g => g.d * g.f * g.f).sum / (l.map fun g => g.d * g.f).sum)) ∧
    (∀ old, (l.map fun g => g.d * g.cr).sum ≠ 0 → old ≠ .fin (-1) →
      memCR p (l.map Gain.succ) old = .fin ((l.map fun g => g.d * g.cr * g.cr).sum / (l.map fun g => g.d * g.cr).sum)) ∧
    ∀ old, (l.map fun g => g.d * g.cr).sum = 0 → memCR p (l.map Gain.succ) old = .fin (-1) := by
  have hT : (l.map (·.d)).sum ≠ 0 := ne_of_gt (List.sum_pos _ (fun x hx => by
    obtain ⟨g, hg, rfl⟩ := List.mem_map.1 hx
    exact hd g hg) (by simpa using hne))
  have e1 := sums_eq hA (sel := (·.f)) (sel' := (·.f)) (fun _ => rfl) hne hd
  have e2 := sums_eq hA (sel := (·.cr)) (sel' := (·.cr)) (fun _ => rfl) hne hd
  refine ⟨fun old h => ?_, fun old h ho => ?_, fun old h => ?_⟩
  · simp only [memF, hp, e1, Option.isSome_none, Bool.false_eq_true, if_false]
    rw [hA.div _ _ (div_ne_zero h hT), div_div_div_cancel_right₀ hT]
  · have hc : ¬ (Fl.fin ((l.map fun g => g.d * g.cr).sum / (l.map (·.d)).sum) = .fin 0 ∨ old = .fin (-1)) := by
      rintro (hc | hc)
      · exact div_ne_zero h hT (Fl.fin.inj hc)
      · exact ho hc
    simp only [memCR, hp, e2, Option.isSome_none, Bool.false_eq_true, if_false, if_neg hc]
    rw [hA.div _ _ (div_ne_zero h hT), div_div_div_cancel_right₀ hT]
  · simp only [memCR, hp, e2, Option.isSome_none, Bool.false_eq_true, if_false]
    rw [if_pos (Or.inl (by rw [h, zero_div]))]

/-- Two successes, scale factors 1/2 and 1, the second with twice the improvement: 9/10 is stored. -/
example : @memF Ex.arith ⟨10, .fin 2, .fin (1 / 10), 5, false, none, 3⟩ [⟨.fin 1, .fin (1 / 2), .fin (1 / 2)⟩, ⟨.fin 2, .fin 1, .fin 1⟩] (.fin (1 / 2)) = .fin (9 / 10) := by decide +kernel

/-- C119: a memory of crossover rates that is marked with -1 remains marked. -/
theorem C119_mark (hA : ExactArith) {p : Par} (l : List Succ) : memCR p l (.fin (-1)) = .fin (-1) := by
  simp only [memCR, or_true, if_true]
  split
  · rw [hA.add, show Fl.ofNat 2 = Fl.fin 2 from rfl, hA.div _ _ (by norm_num)]
    norm_num
  · rfl

end SHADE
end NiaPy
