import Verif.ChartsMore
import Verif.Algo.HHO
import Verif.Runs

/-!
# C98: moving the problem moves the search — the theorems
-/

namespace NiaPy
variable {D N : ℕ} {a : Chart D} {env env' : Env (Vec D)}

/-! ### The task in the new variables -/

/-- The change back to the old variables. -/
def Chart.inv (a : Chart D) : Chart D := ⟨fun j => (a.s j)⁻¹, fun j => -(a.c j / a.s j), fun j => inv_pos.2 (a.pos j)⟩

theorem Chart.inv_pt (a : Chart D) (x : Vec D) : a.inv.pt (a.pt x) = x := by
  funext j
  have := (a.pos j).ne'
  cases h : x j <;> simp [Chart.pt, Chart.inv, h]
  field_simp
  ring

theorem Chart.pt_inv (a : Chart D) (x : Vec D) : a.pt (a.inv.pt x) = x := by
  funext j
  have := (a.pos j).ne'
  cases h : x j <;> simp [Chart.pt, Chart.inv, h]
  field_simp
  ring

theorem Event.inv_move (a : Chart D) (e : Event (Vec D)) : (e.move a).move a.inv = e := by
  cases e <;> simp [Event.move, List.map_map, Function.comp_def, Chart.inv_pt]

/-- The task whose objective at `y` is the objective of the given task at the point that `y` is in the old variables; repair function `rep`. -/
def Env.rechart (a : Chart D) (env : Env (Vec D)) (rep : Rng → ℕ → Vec D → Vec D) : Env (Vec D) :=
  { env with
    obj := fun k y => env.obj k (a.inv.pt y)
    repairFn := rep
    callback := fun i k e => env.callback i k (e.move a.inv) }

/-- The repair function `rep'` is `rep` in the new variables, given one of the generators of `env`. -/
def MovesRepair (a : Chart D) (env : Env (Vec D)) (rep rep' : Rng → ℕ → Vec D → Vec D) : Prop :=
  ∀ r, r = env.rng ∨ r = env.entropy → ∀ k x, rep' r k (a.pt x) = a.pt (rep r k x)

theorem recharted (hu : UnifLaw env.rng) {rep : Rng → ℕ → Vec D → Vec D} (hr : MovesRepair a env env.repairFn rep) :
    Recharted a env (env.rechart a rep) where
  obj k x := by simp only [Env.rechart, Chart.inv_pt]
  opt := rfl
  maxEvals := rfl
  maxIters := rfl
  cutoff := rfl
  repair k x := hr _ (.inl rfl) k x
  repairU k x := hr _ (.inr rfl) k x
  rng := rfl
  entropy := rfl
  callback i k e := by simp only [Env.rechart, Event.inv_move]
  unif := hu

/-! ### Repair functions of the library -/
namespace Repair

theorem aff_isNan {s c : ℚ} (v : Fl) : v.aff s c = .nan ↔ v = .nan := by cases v <;> simp

theorem npMin_aff {s c : ℚ} (hs : 0 < s) (u v : Fl) : Fl.npMin (u.aff s c) (v.aff s c) = (Fl.npMin u v).aff s c := by
  unfold Fl.npMin
  simp only [aff_isNan, Fl.aff_lt hs]
  split
  · rfl
  · split <;> rfl

theorem npMax_aff {s c : ℚ} (hs : 0 < s) (u v : Fl) : Fl.npMax (u.aff s c) (v.aff s c) = (Fl.npMax u v).aff s c := by
  unfold Fl.npMax
  simp only [aff_isNan, Fl.aff_lt hs]
  split
  · rfl
  · split <;> rfl

/-- Clipping to the moved search space is clipping, moved. -/
theorem limit_move (a : Chart D) (B : Box D) (x : Vec D) : limit (B.move a) (a.pt x) = a.pt (limit B x) := by
  funext j
  simp only [limit, clip, Box.move, Chart.pt, npMin_aff (a.pos j), npMax_aff (a.pos j)]

theorem setWhere_move (a : Chart D) {p p' : Fin D → Bool} {new new' x : Vec D} (hp : p' = p) (hn : new' = a.pt new) :
    setWhere p' new' (a.pt x) = a.pt (setWhere p new x) := by
  subst hp hn
  funext j
  simp only [setWhere, Chart.pt]
  split <;> rfl

theorem below_move (a : Chart D) (B : Box D) (x : Vec D) : (fun i => decide (a.pt x i < (B.move a).lo i)) = fun i => decide (x i < B.lo i) := by
  funext i
  simp only [Box.move, Chart.pt, Fl.aff_lt (a.pos i)]

theorem above_move (a : Chart D) (B : Box D) (x : Vec D) : (fun i => decide ((B.move a).hi i < a.pt x i)) = fun i => decide (B.hi i < x i) := by
  funext i
  simp only [Box.move, Chart.pt, Fl.aff_lt (a.pos i)]

theorem limitInverse_move (a : Chart D) (B : Box D) (x : Vec D) : limitInverse (B.move a) (a.pt x) = a.pt (limitInverse B x) := by
  unfold limitInverse
  simp only
  rw [setWhere_move a (new' := (B.move a).hi) (below_move a B x) rfl, setWhere_move a (new' := (B.move a).lo) (above_move a B _) rfl]

theorem twice_aff [Arith] [ExactOps] {s c : ℚ} (hs : 0 < s) (u v : Fl) : 2 * u.aff s c - v.aff s c = (2 * u - v).aff s c := by
  rw [ExactOps.sub, ExactOps.sub, ExactOps.mul, ExactOps.mul]
  have h2 : (2 : Fl) = .fin 2 := rfl
  rw [h2]
  have h0 : ¬ (2 : ℚ) < 0 := by norm_num
  cases u <;> cases v <;> simp [Fl.mulX, Fl.addX, Fl.infOf, h0]
  ring

theorem wang_move [Arith] [ExactOps] (a : Chart D) (B : Box D) (x : Vec D) : wang (B.move a) (a.pt x) = a.pt (wang B x) := by
  have h1 : ∀ x : Vec D, (fun i => Fl.npMin ((B.move a).hi i) (2 * (B.move a).lo i - a.pt x i)) = a.pt fun i => Fl.npMin (B.hi i) (2 * B.lo i - x i) := by
    intro x
    funext i
    simp only [Box.move, Chart.pt, twice_aff (a.pos i), npMin_aff (a.pos i)]
  have h2 : ∀ x : Vec D, (fun i => Fl.npMax ((B.move a).lo i) (2 * (B.move a).hi i - a.pt x i)) = a.pt fun i => Fl.npMax (B.lo i) (2 * B.hi i - x i) := by
    intro x
    funext i
    simp only [Box.move, Chart.pt, twice_aff (a.pos i), npMax_aff (a.pos i)]
  unfold wang
  simp only
  rw [setWhere_move a (below_move a B x) (h1 _), setWhere_move a (above_move a B _) (h2 _)]

theorem rand_move (a : Chart D) {B : Box D} (hB : ∀ i, ∃ p q, B.lo i = .fin p ∧ B.hi i = .fin q) {r : Rng} (hr : UnifLaw r) (k : ℕ) (x : Vec D) :
    rand (B.move a) r k (a.pt x) = a.pt (rand B r k x) := by
  obtain ⟨u, hu⟩ := hr
  have h1 : (fun i : Fin D => r.unif k (i + 1) ((B.move a).lo i) ((B.move a).hi i)) = a.pt fun i => r.unif k (i + 1) (B.lo i) (B.hi i) := by
    funext i
    obtain ⟨p, q, hp, hq⟩ := hB i
    have hle : p ≤ q := by have := B.le i; rw [hp, hq] at this; simpa using this
    have hle' : a.s i * p + a.c i ≤ a.s i * q + a.c i := by
      have := mul_le_mul_of_nonneg_left hle (a.pos i).le
      linarith
    simp only [Box.move, Chart.pt, hp, hq, Fl.aff_fin, hu _ _ _ _ hle, hu _ _ _ _ hle']
    congr 1
    ring
  unfold rand
  simp only
  rw [setWhere_move a (below_move a B x) h1, setWhere_move a (above_move a B _) h1]

/-- `reflect` depends on the origin: with the bounds 0 and 2 it takes 3 to 1, with 1 and 3 it takes 4 to 1. -/
theorem C98_reflect_false : letI := Ex.arith; ∃ (a : Chart 1) (B : Box 1) (x : Vec 1), a.Shift ∧ reflect (B.move a) (a.pt x) ≠ a.pt (reflect B x) := by
  refine ⟨⟨fun _ => 1, fun _ => 1, fun _ => one_pos⟩, ⟨fun _ => .fin 0, fun _ => .fin 2, fun _ => by simp⟩, fun _ => .fin 3, fun _ => rfl, fun h => ?_⟩
  exact absurd (congrFun h 0) (by decide +kernel)

end Repair

/-! ### The theorems -/

/-- The six strategies of differential evolution in the library (de.py:19-220). -/
inductive DE.Standard [Arith] : DE.Strategy D → Prop
  | rand1 : DE.Standard DE.crossRand1
  | best1 : DE.Standard DE.crossBest1
  | rand2 : DE.Standard DE.crossRand2
  | best2 : DE.Standard DE.crossBest2
  | curr2rand1 : DE.Standard DE.crossCurr2Rand1
  | curr2best1 : DE.Standard DE.crossCurr2Best1

theorem DE.Standard.moves [Arith] [ExactOps] {strat : DE.Strategy D} (h : DE.Standard strat) : DE.Moves a strat := by
  exact DE.Standard.rec (motive := fun s _ => DE.Moves a s) moves_rand1 moves_best1 moves_rand2 moves_best2 moves_curr2rand1 moves_curr2best1 h

section
variable [Arith]

/-- Algorithms, as functions of the search space, that depend neither on the origin nor on the units. -/
inductive Affine (opt : OptType) : (Box D → Alg (Vec D)) → Prop
  | de N {strat} (h : DE.Standard strat) f cr : Affine opt fun B => DE.alg opt B N strat f cr
  | deMulti N {strats} (h : ∀ st ∈ strats, DE.Standard st) f cr : Affine opt fun B => DE.algMulti opt B N strats f cr
  | deDyn N {strat} (h : DE.Standard strat) f cr pMax rp : Affine opt fun B => DE.algDyn opt B N strat f cr pMax rp
  | deDynMulti N {strats} (h : ∀ st ∈ strats, DE.Standard st) f cr pMax rp : Affine opt fun B => DE.algDynMulti opt B N strats f cr pMax rp
  | deAging N {strat} (h : DE.Standard strat) f cr p age : Affine opt fun B => DE.algAging opt B N strat f cr p age
  | jde N {strat} (h : DE.Standard strat) p : Affine opt fun B => JDE.alg opt B N strat p
  | jdeMulti N {strats} (h : ∀ st ∈ strats, DE.Standard st) f cr : Affine opt fun B => JDE.algMulti opt B N strats f cr
  | cs N pa : Affine opt fun B => CS.alg B N pa
  | fpa N p : Affine opt fun B => FPA.alg B N p
  | mfo N : Affine opt fun B => MFO.alg B N
  | abc N limit fuel : Affine opt fun B => ABC.alg opt B N limit fuel
  | nm N p : Affine opt fun B => NM.alg B N p
  | ga N {p} (h : p.mutation.Fresh) fuel : Affine opt fun B => GA.alg opt B N p fuel
  | rs fuel : Affine opt fun B => RS.alg B fuel
  | mke2 N p : Affine opt fun B => MKE.alg opt B N p true
  | clonalg b N p : Affine opt fun B => CLONALG.alg B b N p

/-- Algorithms that do not depend on the origin. -/
inductive Translated (opt : OptType) : (Box D → Alg (Vec D)) → Prop
  | affine {F} (h : Affine opt F) : Translated opt F
  | hc delta fuel : Translated opt fun B => HC.alg B delta fuel
  | sa p : Translated opt fun B => SA.alg B p
  | fa N p : Translated opt fun B => FA.alg B N p
  | hs N p : Translated opt fun B => HS.alg B N p
  | ba N p : Translated opt fun B => BA.alg B N p
  | aba N p : Translated opt fun B => BAT.alg B N p
  | saba N p q : Translated opt fun B => BAT.algS B N p q
  | hsaba N p q {strat} (h : DE.Standard strat) f cr : Translated opt fun B => BAT.algHS B N p q strat f cr
  | hba N p {c} (h : DE.Standard (BAT.Callee.run c)) f cr : Translated opt fun B => BAT.algH B N p c f cr
  | plba N : Translated opt fun B => BAT.algP B N
  | pso N p u c : Translated opt fun B => PSO.alg B N p u c 0
  | clpso N p : Translated opt fun B => PSO.algC B N p
  | es1 p : Translated opt fun B => ES.alg1 opt B p
  | esl p lam : Translated opt fun B => ES.algL opt B p lam
  | esm mu lam : Translated opt fun B => ES.algM opt B mu lam
  | gsa N p : Translated opt fun B => GSA.alg B N p
  | gso N {p} (h : GSO.Par.distance p = euclid) : Translated opt fun B => GSO.alg B N p
  | bea N p : Translated opt fun B => BEA.alg B N p

/-- Algorithms that do not depend on the units. -/
inductive Scaled (opt : OptType) : (Box D → Alg (Vec D)) → Prop
  | affine {F} (h : Affine opt F) : Scaled opt F
  | mke1 N p : Scaled opt fun B => MKE.alg opt B N p false
  | gwo N : Scaled opt fun B => GWO.alg B N
  | sca N p : Scaled opt fun B => SCA.alg B N p

/-- The run of `A'` on `env'` is the run of `A` on `env` in the new variables: the same points are evaluated, with the same values, the solution returned is the same with the same
fitness (or the same exception is raised), the numbers of evaluations and iterations and the convergence data are the same, and callbacks are shown the same populations. -/
def SameRun (a : Chart D) (A A' : Alg (Vec D)) (env env' : Env (Vec D)) (main : Bool) (ncb fuel : ℕ) : Prop :=
  (match (A.exec env main ncb fuel).1 with
    | .ok r => (A'.exec env' main ncb fuel).1 = .ok ⟨r.result.map a.sol, r.exception⟩
    | .error e => (A'.exec env' main ncb fuel).1 = .error e) ∧
  (A'.exec env' main ncb fuel).2.calls = (A.exec env main ncb fuel).2.calls.map (fun c => (a.pt c.1, c.2)) ∧
  (A'.exec env' main ncb fuel).2.st = (A.exec env main ncb fuel).2.st ∧
  (A'.exec env' main ncb fuel).2.events = (A.exec env main ncb fuel).2.events.map fun e => (e.1, e.2.move a)

omit [Arith] in
theorem Carries.same {A A' : Alg (Vec D)} {m : A.σ → A'.σ} (h : Carries a A A' m) (hE : Recharted a env env') (main : Bool) (ncb fuel : ℕ) :
    SameRun a A A' env env' main ncb fuel :=
  have e := h.exec hE main ncb fuel
  ⟨e.1, e.2.calls, e.2.st, e.2.events⟩

variable [ExactOps]

theorem Affine.carries {opt : OptType} {F : Box D → Alg (Vec D)} (h : Affine opt F) (a : Chart D) (B : Box D) : ∃ m, Carries a (F B) (F (B.move a)) m := by
  cases h with
  | de N h f cr => exact ⟨_, DE.C98_de opt B N h.moves f cr⟩
  | deMulti N h f cr => exact ⟨_, DE.C98_multi opt B N (fun st hst => (h st hst).moves) f cr⟩
  | deDyn N h f cr pMax rp => exact ⟨_, DE.C98_dyn opt B N h.moves f cr pMax rp⟩
  | deDynMulti N h f cr pMax rp => exact ⟨_, DE.C98_dyn_multi opt B N (fun st hst => (h st hst).moves) f cr pMax rp⟩
  | deAging N h f cr p age => exact ⟨_, DE.C98_aging opt B N h.moves f cr p age⟩
  | jde N h p => exact ⟨_, JDE.C98_jde opt B N h.moves p⟩
  | jdeMulti N h f cr => exact ⟨_, JDE.C98_jde_multi opt B N (fun st hst => (h st hst).moves) f cr⟩
  | cs N pa => exact ⟨_, CS.C98_cs B N pa⟩
  | fpa N p => exact ⟨_, FPA.C98_fpa B N p⟩
  | mfo N => exact ⟨_, MFO.C98_mfo B N⟩
  | abc N limit fuel => exact ⟨_, ABC.C98_abc opt B N limit fuel⟩
  | nm N p => exact ⟨_, NM.C98_nm B N p⟩
  | ga N h fuel => exact ⟨_, GA.C98_ga opt B N h fuel⟩
  | rs fuel => exact ⟨_, RS.C98_rs B fuel⟩
  | mke2 N p => exact ⟨_, MKE.C98_mke opt B N p (.inl rfl)⟩
  | clonalg b N p => exact ⟨_, CLONALG.C98_clonalg B b N p⟩

theorem Translated.carries {opt : OptType} {F : Box D → Alg (Vec D)} (h : Translated opt F) (hs : a.Shift) (B : Box D) : ∃ m, Carries a (F B) (F (B.move a)) m := by
  cases h with
  | affine h => exact h.carries a B
  | hc delta fuel => exact ⟨_, HC.C98_hc hs B delta fuel⟩
  | sa p => exact ⟨_, SA.C98_sa hs B p⟩
  | fa N p => exact ⟨_, FA.C98_fa hs B N p⟩
  | hs N p => exact ⟨_, HS.C98_hs hs B N p⟩
  | ba N p => exact ⟨_, BA.C98_ba hs B N p⟩
  | aba N p => exact ⟨_, BAT.C98_bat hs B N p⟩
  | saba N p q => exact ⟨_, BAT.C98_batS hs B N p q⟩
  | hsaba N p q h f cr => exact ⟨_, BAT.C98_batHS hs B N p q h.moves f cr⟩
  | hba N p h f cr => exact ⟨_, BAT.C98_batH hs B N p h.moves f cr⟩
  | plba N => exact ⟨_, BAT.C98_batP hs B N⟩
  | pso N p u c =>
    have := PSO.C98_pso B N (.shift hs p.rep) u c
    rw [PSO.par_shift hs] at this
    exact ⟨_, this⟩
  | clpso N p => exact ⟨_, PSO.C98_clpso hs B N p⟩
  | es1 p => exact ⟨_, ES.C98_es1 hs opt B p⟩
  | esl p lam => exact ⟨_, ES.C98_esL hs opt B p lam⟩
  | esm mu lam => exact ⟨_, ES.C98_esM hs opt B mu lam⟩
  | gsa N p => exact ⟨_, GSA.C98_gsa hs B N p⟩
  | gso N h => exact ⟨_, GSO.C98_gso hs B N (by rw [h]; exact euclid_shift hs)⟩
  | bea N p => exact ⟨_, BEA.C98_bea hs B N p⟩

theorem Scaled.carries {opt : OptType} {F : Box D → Alg (Vec D)} (h : Scaled opt F) (hu : a.Units) (B : Box D) : ∃ m, Carries a (F B) (F (B.move a)) m := by
  cases h with
  | affine h => exact h.carries a B
  | mke1 N p => exact ⟨_, MKE.C98_mke opt B N p (.inr hu)⟩
  | gwo N => exact ⟨_, GWO.C98_gwo hu B N⟩
  | sca N p => exact ⟨_, SCA.C98_sca hu B N p⟩

/-- C98 (the origin and the units of every variable are changed). -/
theorem C98_affine {opt : OptType} {F : Box D → Alg (Vec D)} (hF : Affine opt F) (B : Box D) (hE : Recharted a env env') (main : Bool) (ncb fuel : ℕ) :
    SameRun a (F B) (F (B.move a)) env env' main ncb fuel := (hF.carries a B).choose_spec.same hE main ncb fuel

/-- C98 (the origin is moved). -/
theorem C98_translated {opt : OptType} {F : Box D → Alg (Vec D)} (hF : Translated opt F) (B : Box D) (ha : a.Shift) (hE : Recharted a env env') (main : Bool) (ncb fuel : ℕ) :
    SameRun a (F B) (F (B.move a)) env env' main ncb fuel := (hF.carries ha B).choose_spec.same hE main ncb fuel

/-- C98 (the units are changed). -/
theorem C98_scaled {opt : OptType} {F : Box D → Alg (Vec D)} (hF : Scaled opt F) (B : Box D) (ha : a.Units) (hE : Recharted a env env') (main : Bool) (ncb fuel : ℕ) :
    SameRun a (F B) (F (B.move a)) env env' main ncb fuel := (hF.carries ha B).choose_spec.same hE main ncb fuel

end

/-! ### Examples -/
namespace Ex

/-- A generator whose uniform numbers are `lo + (hi - lo) * u`. -/
def Draws.scaled (d : Draws) : Rng :=
  { d.rng with
    unif := fun k _ lo hi => match lo, hi with
      | .fin p, .fin q => .fin (p + (q - p) * if 0 ≤ d.unif k ∧ d.unif k ≤ 1 then d.unif k else 0)
      | lo, _ => lo
    unif_mem := fun k _ lo hi h => by
      cases lo with
      | fin p =>
        cases hi with
        | fin q =>
          have hpq : p ≤ q := by simpa using h
          have h0 : ∀ u : ℚ, 0 ≤ u → u ≤ 1 → p ≤ p + (q - p) * u ∧ p + (q - p) * u ≤ q := by
            intro u h1 h2
            constructor
            · nlinarith
            · nlinarith
          have key : p ≤ p + (q - p) * (if 0 ≤ d.unif k ∧ d.unif k ≤ 1 then d.unif k else 0) ∧ p + (q - p) * (if 0 ≤ d.unif k ∧ d.unif k ≤ 1 then d.unif k else 0) ≤ q := by
            by_cases hu : 0 ≤ d.unif k ∧ d.unif k ≤ 1
            · rw [if_pos hu]; exact h0 _ hu.1 hu.2
            · rw [if_neg hu]; exact h0 0 le_rfl zero_le_one
          exact ⟨(Fl.fin_le_fin _ _).2 key.1, (Fl.fin_le_fin _ _).2 key.2⟩
        | pinf => simp
        | ninf => simp at h
        | nan => simp at h
      | pinf => cases hi <;> simp at h ⊢
      | ninf => cases hi <;> simp at h ⊢
      | nan => cases hi <;> simp at h }

theorem Draws.scaled_law (d : Draws) : UnifLaw d.scaled := ⟨fun k _ => if 0 ≤ d.unif k ∧ d.unif k ≤ 1 then d.unif k else 0, fun _ _ _ _ _ => rfl⟩

/-- Streams of numbers between 0 and 1. -/
def draws01 : Draws where
  rand k := (k * 7 % 11 : ℕ) / 11
  unif k := (k * 5 % 13 : ℕ) / 13
  norm k := .fin ((k * 3 % 7 : ℕ) / 4 - 1)
  int k := k
  rot k := k

/-- Two iterations on the sphere, clipping to the search space `B`. -/
def envS (B : Box D) : Env (Vec D) := { env2 with rng := draws01.scaled, entropy := draws01.scaled, repairFn := fun _ _ => Repair.limit B }

/-- The same in the new variables, clipping to the new search space. -/
def envS' (a : Chart D) (B : Box D) : Env (Vec D) := (envS B).rechart a fun _ _ => Repair.limit (B.move a)

theorem envS_recharted (a : Chart D) (B : Box D) : Recharted a (envS B) (envS' a B) := recharted draws01.scaled_law fun _ _ _ x => Repair.limit_move a B x

/-- The units are multiplied by 2 and 3, the origin is moved by 1 and -5. -/
def chart2 : Chart 2 := ⟨fun j => if j = 0 then 2 else 3, fun j => if j = 0 then 1 else -5, fun j => by split <;> norm_num⟩
/-- The origin is moved by 10. -/
def shift1 : Chart 1 := ⟨fun _ => 1, fun _ => 10, fun _ => one_pos⟩

end Ex

example : letI := Ex.arith
    SameRun Ex.chart2 (DE.alg .minimization (Ex.box 2) 4 DE.crossBest1 (.fin (1 / 2)) (.fin (1 / 2)))
      (DE.alg .minimization ((Ex.box 2).move Ex.chart2) 4 DE.crossBest1 (.fin (1 / 2)) (.fin (1 / 2))) (Ex.envS (Ex.box 2)) (Ex.envS' Ex.chart2 (Ex.box 2)) false 0 5 :=
  letI := Ex.arith
  letI : ExactOps := inferInstanceAs (@ExactOps (exactArith _))
  C98_affine (.de 4 .best1 _ _) (Ex.box 2) (Ex.envS_recharted _ _) false 0 5

example : letI := Ex.arith
    SameRun Ex.shift1 (HC.alg (Ex.box 1) (.fin (1 / 2)) 3) (HC.alg ((Ex.box 1).move Ex.shift1) (.fin (1 / 2)) 3) (Ex.envS (Ex.box 1)) (Ex.envS' Ex.shift1 (Ex.box 1)) false 0 5 :=
  letI := Ex.arith
  letI : ExactOps := inferInstanceAs (@ExactOps (exactArith _))
  C98_translated (opt := .minimization) (.hc _ 3) (Ex.box 1) (fun _ => rfl) (Ex.envS_recharted _ _) false 0 5

/-! ### Algorithms that depend on the origin or on the units -/

/-- The values found. -/
def Ex.vals (A : Alg (Vec D)) (env : Env (Vec D)) : List (Option Fl) :=
  (A.exec env false 0 5).2.calls.map fun c => match c.2 with
    | .ok v => some v
    | .error _ => none

theorem Ex.differ {A A' : Alg (Vec D)} (h : Ex.vals A' env' ≠ Ex.vals A env) : ¬ SameRun a A A' env env' false 0 5 := fun hs => h (by
  unfold Ex.vals
  rw [hs.2.1, List.map_map]
  rfl)

/-- The unit is doubled. -/
def Ex.units1 : Chart 1 := ⟨fun _ => 2, fun _ => 0, fun _ => two_pos⟩

/-- The claim for one algorithm and changes of variables that satisfy `P`. -/
def Invariant (P : Chart 1 → Prop) (F : Box 1 → Alg (Vec 1)) : Prop :=
  ∀ a, P a → ∀ B env env', Recharted a env env' → SameRun a (F B) (F (B.move a)) env env' false 0 5

theorem Ex.refute {P : Chart 1 → Prop} {F : Box 1 → Alg (Vec 1)} (a : Chart 1) (ha : P a)
    (h : Ex.vals (F ((Ex.box 1).move a)) (Ex.envS' a (Ex.box 1)) ≠ Ex.vals (F (Ex.box 1)) (Ex.envS (Ex.box 1))) : ¬ Invariant P F :=
  fun hi => Ex.differ h (hi a ha _ _ _ (Ex.envS_recharted a _))

/-- The grey wolf optimizer depends on the origin: `abs(c * leader - wolf)` with `c` between 0 and 2. -/
theorem GWO.C98_gwo_false : ¬ Invariant Chart.Shift fun B => @GWO.alg Ex.arith 1 B 4 :=
  Ex.refute Ex.shift1 (fun _ => rfl) (by decide +kernel)

/-- Harris hawks optimization depends on the origin. -/
theorem HHO.C98_hho_false : ¬ Invariant Chart.Shift fun B => @HHO.alg Ex.arith 1 B 4 (.fin 1) :=
  Ex.refute Ex.shift1 (fun _ => rfl) (by decide +kernel)

/-- Monkey king evolution (first version) depends on the origin: a king's copies are `x + fc * r * x`. -/
theorem MKE.C98_mke1_false : ¬ Invariant Chart.Shift fun B => @MKE.alg Ex.arith 1 .minimization B 4 ⟨.fin (1 / 2), .fin (1 / 2), .fin 2, .fin (1 / 2)⟩ false :=
  Ex.refute Ex.shift1 (fun _ => rfl) (by decide +kernel)

/-- Monkey king evolution (third version) depends on the origin: `xb + fc * pop[r] - pop[r']`, where the factor does not multiply the difference. -/
theorem MKE.C98_mke3_false : ¬ Invariant Chart.Shift fun B => @MKE.alg3 Ex.arith 1 B 4 (.fin (1 / 2)) 3 :=
  Ex.refute Ex.shift1 (fun _ => rfl) (by decide +kernel)

/-- The mutations of the mutated particle swarm depend on the origin: they add a multiple of a point of the search space. -/
theorem PSO.C98_mutated_false : ¬ Invariant Chart.Shift fun B =>
    @PSO.alg Ex.arith 1 B 3 ⟨.fin (3 / 2), .fin (3 / 2), fun _ => .fin (1 / 2), fun _ => .ninf, fun _ => .pinf, fun v _ _ => v⟩ false false 1 :=
  Ex.refute Ex.shift1 (fun _ => rfl) (by decide +kernel)

/-- Hill climbing depends on the units: the width of the neighbourhood is an absolute number. -/
theorem HC.C98_hc_units_false : ¬ Invariant Chart.Units fun B => @HC.alg Ex.arith 1 B (.fin 1) 4 :=
  Ex.refute Ex.units1 (fun _ => rfl) (by decide +kernel)

/-- So does the (1+1) evolution strategy. -/
theorem ES.C98_es1_units_false : ¬ Invariant Chart.Units fun B => @ES.alg1 Ex.arith 1 .minimization B ⟨2, 3, .fin (11 / 10), .fin (1 / 2), .fin (1 / 1000)⟩ :=
  Ex.refute Ex.units1 (fun _ => rfl) (by decide +kernel)

/-- So does the gravitational search. -/
theorem GSA.C98_gsa_units_false : ¬ Invariant Chart.Units fun B => @GSA.alg Ex.arith 1 B 3 ⟨.fin 3, .fin (1 / 10)⟩ :=
  Ex.refute Ex.units1 (fun _ => rfl) (by decide +kernel)

/-- So does the firefly algorithm: the attraction depends on the distance. -/
theorem FA.C98_fa_units_false : ¬ Invariant Chart.Units fun B => @FA.alg Ex.arith 1 B 3 ⟨.fin 1, .fin (9 / 10), .fin (1 / 10), .fin (97 / 100)⟩ :=
  Ex.refute Ex.units1 (fun _ => rfl) (by decide +kernel)

end NiaPy
