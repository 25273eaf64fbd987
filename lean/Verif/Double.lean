import Verif.Float64
import Verif.Uncoupled
import Verif.NoRaise
import Verif.SafeF

/-!
# C86: bounds in double precision

Most algorithms pass every solution to `task.repair` before it is evaluated. Some compute solutions that should be within the bounds
anyway and evaluate them as they are; whether they are depends on rounding. Here the laws assumed elsewhere are settled for IEEE double
precision (`Float64.float64`).
-/

namespace NiaPy.Float64

variable {D : ℕ} {opt : OptType}

/-- The algorithms that evaluate `lower + range * random` (or what `uniform` returns) unrepaired: random search, hill climbing, simulated
annealing, bacterial foraging. -/
inductive Sampling (fn : Fn → Fl → Fl) (B : Box D) : Alg (Vec D) → Prop
  | rs (fuel) : Sampling fn B (@RS.alg (float64 fn) D B fuel)
  | hc (delta fuel) : Sampling fn B (@HC.alg (float64 fn) D B delta fuel)
  | sa (p) : Sampling fn B (@SA.alg (float64 fn) D B p)
  | bfo (N p k0 j0) : Sampling fn B (@BFO.alg (float64 fn) D B N p k0 j0)

/-- C86: in double precision, random search, hill climbing, simulated annealing and bacterial foraging evaluate only solutions within the
bounds, although they do not repair the solutions they sample. The bounds are doubles below `2 ^ 1022`; the repair function leads
into the bounds. -/
theorem C86_sampling_partial (fn : Fn → Fl → Fl) {B : Box D} (hB : Bounds B) {A : Alg (Vec D)} (hA : Sampling fn B A) (env : Env (Vec D))
    (hR : ∀ rng k x, B.NotOut (env.repairFn rng k x)) (main : Bool) (ncb fuel : ℕ) :
    ∀ c ∈ (A.exec env main ncb fuel).2.calls, B.NotOut c.1 := by
  letI := float64 fn
  have haff := affineLaw fn hB
  cases hA with
  | rs f => exact C25_uncoupled (.rs f haff) env hR main ncb fuel
  | hc delta f => exact C25_all_feasible (opt := .minimization) (.hc delta f true fun _ => haff) env hR main ncb fuel
  | sa p => exact C25_all_feasible (opt := .minimization) (.sa p true (fun _ => haff) (subNeg fn)) env hR main ncb fuel
  | bfo N p k0 j0 => exact C25_all_feasible (opt := .minimization) (.bfo N p k0 j0 true fun _ => haff) env hR main ncb fuel

/-- C09 in double precision: `wang` leads into the bounds. -/
theorem C09_wang_double (fn : Fn → Fl → Fl) {B : Box D} (hB : Bounds B) (x : Vec D) : B.NotOut (@Repair.wang D (float64 fn) B x) := by
  letI := float64 fn
  refine Repair.C09_wang B (fun i => ?_) x
  obtain ⟨⟨a, ha, ha'⟩, b, hb, hb'⟩ := hB i
  rw [ha, hb]
  exact mirrorLaw fn ha' hb'

/-- The hypothesis of `C36_jde_partial` holds in double precision, for all scale factors that are doubles. -/
theorem jde_scale (fn : Fn → Fl → Fl) {a b : ℚ} (ha : Bound a) (hb : Bound b) (h : a ≤ b) (p : JDE.Par) (h1 : p.fLo = .fin a) (h2 : p.fUp = .fin b) :
    letI := float64 fn
    ∀ r, Fl.fin 0 ≤ r → r ≤ Fl.belowOne → p.fLo ≤ p.fLo + r * (p.fUp - p.fLo) ∧ p.fLo + r * (p.fUp - p.fLo) ≤ p.fUp := by
  intro r h0 h3
  rw [h1, h2]
  exact affine_mem fn ha hb h h0 h3

/-- Zeros in double precision: the fireworks algorithm raises there, too (`FWA.C71_fwa_run_false`), if the square root of 0 is 0. -/
theorem zeroLaw (fn : Fn → Fl → Fl) (h : fn .sqrt (.fin 0) = .fin 0) : @FWA.ZeroLaw (float64 fn) := by
  let _ := float64 fn
  have h0 : rnd 0 = .fin 0 := by decide +kernel
  refine ⟨fun a => ?_, ?_, ?_, rfl, h⟩
  · change sub (.fin a) (.fin a) = _
    simp only [sub, sub_self, h0, ite_self]
  · change rnd (0 * 0) = _
    rw [mul_zero, h0]
  · change rnd (0 + 0) = _
    rw [add_zero, h0]

theorem rnd_nonpos {q : ℚ} (h : q ≤ 0) : rnd q ≤ .fin 0 := by
  have := rnd_mono h
  rwa [rnd_of_isF isF_zero (by norm_num)] at this

/-- The hypothesis of `C62_saba_false` (adapted bats never move again) holds in double precision, too. -/
theorem freezes (fn : Fn → Fl → Fl) {p : BAT.Par} {q : BAT.Self} {lo hi st : ℚ} (hl : Bound lo) (hh : Bound hi) (h1 : q.minLoudness = .fin lo)
    (h2 : q.maxLoudness = .fin hi) (h3 : p.startingLoudness = .fin st) (hle : lo ≤ hi) (hst : 0 < st) : @BAT.Freezes (float64 fn) p q := by
  letI := float64 fn
  refine @BAT.Freezes.mk (float64 fn) p q (fun r h0 hr => ?_) fun l r hl' h0 => ?_
  · rw [h1, h2]
    exact (affine_mem fn hl hh hle h0 hr).1
  · rw [h1] at hl' ⊢
    rw [h3]
    have key : (Fl.fin lo - l) / Fl.fin st ≤ Fl.fin 0 := by
      have hd : (Fl.fin lo - l) ≤ Fl.fin 0 := by
        change sub (.fin lo) l ≤ _
        cases l with
        | fin l =>
          simp only [Fl.fin_le_fin] at hl'
          simp only [sub]
          split
          · exact rnd_nonpos (by linarith)
          · simpa using hl'
        | pinf => change Fl.ninf ≤ _; simp
        | nan => simp at hl'
        | ninf => simp at hl'
      generalize (Fl.fin lo - l) = v at hd
      cases v with
      | fin v =>
        rw [Fl.fin_le_fin] at hd
        have : (Fl.fin v / Fl.fin st : Fl) = rnd (v / st) := by
          change (match Fl.divX (.fin v) (.fin st) with
            | .fin q => rnd q
            | v => v) = _
          simp [Fl.divX, hst.ne']
        rw [this]
        exact rnd_nonpos (div_nonpos_of_nonpos_of_nonneg hd hst.le)
      | ninf =>
        have : (Fl.ninf / Fl.fin st : Fl) = .ninf := by
          change (match Fl.divX .ninf (.fin st) with
            | .fin q => rnd q
            | v => v) = _
          simp [Fl.divX, not_lt.2 hst.le]
        rw [this]
        simp
      | nan => simp at hd
      | pinf => simp at hd
    exact fun h => Fl.not_lt_of_le (Fl.le_trans key h0) h

namespace Ex

/-- The doubles written `0.1`, `-2.6`, `0.6`, `0.7`, `2.9`. -/
def d01 : ℚ := 3602879701896397 / 36028797018963968
def dm26 : ℚ := -5854679515581645 / 2251799813685248
def d06 : ℚ := 5404319552844595 / 9007199254740992
def d07 : ℚ := 3152519739159347 / 4503599627370496
def d29 : ℚ := 6530219459687219 / 2251799813685248

example : rnd (1 / 10) = .fin d01 ∧ rnd (-26 / 10) = .fin dm26 ∧ rnd (6 / 10) = .fin d06 ∧ rnd (7 / 10) = .fin d07 ∧ rnd (29 / 10) = .fin d29 := by
  decide +kernel

/-- An interval in one dimension. -/
def box (lo hi : ℚ) (h : lo ≤ hi) : Box 1 := ⟨fun _ => .fin lo, fun _ => .fin hi, fun _ => by simpa using h⟩

def small : Box 1 := box 0 d01 (by decide +kernel)
def wide : Box 1 := box dm26 d06 (by decide +kernel)
def right : Box 1 := box d07 d29 (by decide +kernel)

theorem bound {q : ℚ} (m : ℤ) (k : ℕ) (hm : |m| < 2 ^ 53) (hk : k ≤ 1074) (h : q = m / 2 ^ k) : Bound q := by
  have h2 : (0 : ℚ) < 2 ^ k := by positivity
  refine ⟨⟨m, -k, hm, by omega, by rw [h, zpow_neg, zpow_natCast]; rfl⟩, ?_⟩
  rw [h, abs_div, abs_of_pos h2]
  have h1 : (1 : ℚ) ≤ 2 ^ k := one_le_pow₀ (by norm_num)
  have h3 : |(m : ℚ)| < 2 ^ 53 := by exact_mod_cast hm
  calc |(m : ℚ)| / 2 ^ k ≤ |(m : ℚ)| := div_le_self (abs_nonneg _) h1
    _ ≤ 2 ^ 53 := h3.le
    _ ≤ 2 ^ 1022 := pow_le_pow_right₀ (by norm_num) (by norm_num)

theorem small_bounds : Bounds small := fun _ =>
  ⟨⟨0, rfl, bound 0 0 (by norm_num) (by norm_num) (by norm_num)⟩, d01, rfl, bound 3602879701896397 55 (by norm_num) (by norm_num) (by norm_num [d01])⟩
theorem wide_bounds : Bounds wide := fun _ =>
  ⟨⟨dm26, rfl, bound (-5854679515581645) 51 (by norm_num) (by norm_num) (by norm_num [dm26])⟩,
    d06, rfl, bound 5404319552844595 53 (by norm_num) (by norm_num) (by norm_num [d06])⟩
theorem right_bounds : Bounds right := fun _ =>
  ⟨⟨d07, rfl, bound 3152519739159347 52 (by norm_num) (by norm_num) (by norm_num [d07])⟩,
    d29, rfl, bound 6530219459687219 51 (by norm_num) (by norm_num) (by norm_num [d29])⟩

/-- The identity as objective (no NaN), the repair function `limit`; `uniform` yields `u` if this is within the
bounds given, else the lower bound; `random` yields 3/4. -/
def env (B : Box 1) (u : ℚ := 3) : Env (Vec 1) :=
  NiaPy.Ex.env (fun _ x => .ok (match x 0 with | .nan => .fin 0 | v => v)) .minimization none (some 1) none
    { unif := fun _ => u, rand := fun _ => 3 / 4 } fun _ _ x => Repair.limit B x

theorem env_noNaN (B : Box 1) (u : ℚ) : NoNaN (env B u) := by
  intro k x r h
  have h : Except.ok (match x 0 with | .nan => .fin 0 | v => v) = Except.ok (ε := PyErr) r := h
  cases h
  cases x 0 <;> simp

theorem env_repairs (B : Box 1) (u : ℚ) (rng k x) : B.NotOut ((env B u).repairFn rng k x) := (Repair.C09_limit B x).1

end Ex

/-- C86 is false of center particle swarm optimization: the mean of three particles at the upper bound `0.1` is rounded to a number above
it, and this center is evaluated without repair. -/
theorem C86_cpso_false : ∃ (B : Box 1) (env : Env (Vec 1)), Bounds B ∧ NoNaN env ∧ (∀ rng k x, B.NotOut (env.repairFn rng k x)) ∧
    (@PSO.alg (float64 fun _ x => x) 1 B 3 ⟨2, 2, fun _ => .fin (1 / 2), fun _ => .ninf, fun _ => .pinf, fun v _ _ => v⟩ false true 0).EvaluatesOutside B env :=
  ⟨Ex.small, Ex.env _ Ex.d01, Ex.small_bounds, Ex.env_noNaN _ _, Ex.env_repairs _ _, .of (fuel := 3) (by decide +kernel)⟩

/-- ... of the opposition-based variant: on `[-2.6, 0.6]` the point opposite to the lower bound, `-2.6 + 0.6 - -2.6`, is rounded to
`0.6000000000000001`. -/
theorem C86_ovcpso_false : ∃ (B : Box 1) (env : Env (Vec 1)), Bounds B ∧ NoNaN env ∧ (∀ rng k x, B.NotOut (env.repairFn rng k x)) ∧
    (@PSO.algO (float64 fun _ x => x) 1 B 2 ⟨⟨2, 2, fun _ => 0, fun _ => .ninf, fun _ => .pinf, fun v _ _ => v⟩, .fin (1 / 2), .fin (1 / 2), .fin 1, .fin (1 / 10)⟩).EvaluatesOutside B env :=
  ⟨Ex.wide, Ex.env _, Ex.wide_bounds, Ex.env_noNaN _ _, Ex.env_repairs _ _, .of (fuel := 3) (by decide +kernel)⟩

/-- ... and of the clonal selection algorithm: with 16 bits, 11...1 should be decoded to the upper bound `0.6`, but it is decoded to
`0.6000000000000001`. -/
theorem C86_clonalg_false : ∃ (B : Box 1) (env : Env (Vec 1)), Bounds B ∧ NoNaN env ∧ (∀ rng k x, B.NotOut (env.repairFn rng k x)) ∧
    (@CLONALG.alg (float64 fun _ x => x) 1 B 16 2 ⟨1, 1, 1⟩).EvaluatesOutside B env :=
  ⟨Ex.wide, Ex.env _, Ex.wide_bounds, Ex.env_noNaN _ _, Ex.env_repairs _ _, .of (fuel := 3) (by decide +kernel)⟩

/-- C40 fails in double precision: all bits 1 can be decoded to a number above the upper bound. -/
theorem C40_double_false : ∃ B : Box 1, Bounds B ∧ ∃ w : CLONALG.Bits 1 16, ¬ B.NotOut (@CLONALG.decode (float64 fun _ x => x) 1 16 B w) :=
  ⟨Ex.wide, Ex.wide_bounds, fun _ _ => true, by decide +kernel⟩

/-- C09 fails in double precision for `reflect`: on `[0.7, 2.9]` a tiny negative number is led to `2.9000000000000004`: `%` yields the
rounded width `2.2`, and `0.7 + 2.2` is rounded up. -/
theorem C09_reflect_double_false : ∃ (B : Box 1) (q : ℚ), Bounds B ∧ IsF q ∧ ¬ B.NotOut (@Repair.reflect 1 (float64 fun _ x => x) B fun _ => .fin q) :=
  ⟨Ex.right, -1 / 2 ^ 70, Ex.right_bounds, ⟨-1, -70, by norm_num, by norm_num, by norm_num⟩, by decide +kernel⟩

/-- `freezes` and `jde_scale` apply to the loudness interval `[0.7, 2.9]` and to the default scale factors. -/
example : @BAT.Freezes (float64 fun _ x => x) BAT.Ex.par { BAT.Ex.self with minLoudness := .fin Ex.d07, maxLoudness := .fin Ex.d29 } :=
  freezes _ (by obtain ⟨⟨_, h, h'⟩, _⟩ := Ex.right_bounds 0; cases h; exact h') (by obtain ⟨_, _, h, h'⟩ := Ex.right_bounds 0; cases h; exact h')
    rfl rfl rfl (by decide +kernel) (by norm_num)
example : Bound 0 ∧ Bound 1 ∧ JDE.Par.default.fLo = .fin 0 ∧ JDE.Par.default.fUp = .fin 1 :=
  ⟨Ex.bound 0 0 (by norm_num) (by norm_num) (by norm_num), Ex.bound 1 0 (by norm_num) (by norm_num) (by norm_num), by decide +kernel, rfl⟩

/-- The repair function `limit` satisfies the hypothesis of `C86_sampling_partial`, e.g. on `[-2.6, 0.6]`; random search evaluates
solutions there. -/
example : Bounds Ex.wide ∧ (∀ rng k x, Ex.wide.NotOut ((Ex.env Ex.wide).repairFn rng k x)) ∧
    0 < ((@SA.alg (float64 fun _ x => x) 1 Ex.wide ⟨.fin (1 / 2), 2000, .fin (4 / 5), .delta⟩).exec (Ex.env Ex.wide) true 0 3).2.calls.length :=
  ⟨Ex.wide_bounds, Ex.env_repairs _ _, by decide +kernel⟩

/-! ### Anarchic society optimization -/

theorem rnd_ne_nan (q : ℚ) : rnd q ≠ .nan := by
  unfold rnd
  split
  · simp
  · rename_i h
    have h0 : rn q ≠ 0 := fun h0 => h (by rw [h0]; simp)
    unfold Fl.infOf
    split
    · simp
    · rw [if_pos (lt_of_le_of_ne (not_lt.1 ‹_›) h0)]; simp

/-- In double precision, sums and products may overflow, but the movements of anarchic society optimization do not lead to NaN, and `limit` makes
infinite coordinates finite: the hypothesis of `ASO.C70_partial`. -/
theorem roams (fn : Fn → Fl → Fl) {B : Box D} (hB : Bounds B) (env : Env (Vec D)) (hr : ∀ rng k x, env.repairFn rng k x = Repair.limit B x)
    (hn : ∀ k, ∃ q, env.rng.dist k .normal 0 1 = .fin q) (q : ℚ) : @ASO.Roams (float64 fn) D env (.fin q) (· ≠ .nan) :=
  letI := float64 fn
  { rep := fun _ _ x hx j => by
      rw [hr]
      obtain ⟨⟨a, ha, _⟩, b, hb, _⟩ := hB j
      have hj := hx j
      show ∃ q, Repair.clip (x j) (B.lo j) (B.hi j) = _
      rw [ha, hb]
      cases h : x j with
      | nan => exact absurd h hj
      | pinf => exact ⟨b, by simp [Repair.clip, Fl.npMin, Fl.npMax]⟩
      | ninf => exact ⟨if b < a then b else a, by simp [Repair.clip, Fl.npMin, Fl.npMax]; split <;> rfl⟩
      | fin v =>
        have h1 : ∀ c d : ℚ, ∃ e, Fl.npMax (.fin c) (.fin d) = .fin e := fun c d => by
          simp only [Fl.npMax, reduceCtorEq, or_self, if_false]
          split <;> exact ⟨_, rfl⟩
        obtain ⟨e, he⟩ := h1 v a
        simp only [Repair.clip, he, Fl.npMin, reduceCtorEq, or_self, if_false]
        split <;> exact ⟨_, rfl⟩
    fin := fun q => by simp
    noise := fun a k => by
      obtain ⟨b, hb⟩ := hn k
      rw [hb]
      show (match Fl.addX (.fin a) (rnd (q * b)) with | .fin q => rnd q | v => v) ≠ .nan
      have := rnd_ne_nan (q * b)
      cases h : rnd (q * b) with
      | nan => exact absurd h this
      | fin c => exact rnd_ne_nan _
      | pinf => simp [Fl.addX]
      | ninf => simp [Fl.addX] }

end NiaPy.Float64
