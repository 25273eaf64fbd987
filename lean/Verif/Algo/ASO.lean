import Verif.Post
import Verif.Steps
import Verif.Integers

/-!
# Anarchic society optimization (`niapy/algorithms/other/aso.py`), with C34
-/

namespace NiaPy.ASO
open NiaPy
variable [Arith] {D N : ℕ}

/-- The functions for combining movements (aso.py:120-221). -/
inductive Comb where
  | elitism | sequential | crossover

/-- Parameters (aso.py:324-357); `dn` is the distance between individuals (a pure function). -/
structure Par (D : ℕ) where
  alpha : ArrayArg
  gamma : ArrayArg
  theta : ArrayArg
  dn : Vec D → Vec D → Fl
  nl : Fl
  f : Fl
  cr : Fl
  comb : Comb

/-- State of a run (aso.py:505-543). -/
structure St (D N : ℕ) where
  pop : Fin N → Vec D
  fit : Fin N → Fl
  pb : Fin N → Vec D
  pbf : Fin N → Fl
  alpha : Fin N → Fl
  gamma : Fin N → Fl
  theta : Fin N → Fl
  rs : Fl

/-- `full_array(a, population_size)` (aso.py:380-399); the result has `N` elements. -/
def arr (a : ArrayArg) (N : ℕ) : Prog (Vec D) (Fin N → Fl) := do
  let l ← Prog.ofExcept (fullArray a N)
  return fun i => l.getD i .nan

/-- `init_population` (aso.py:505-543). -/
def init (B : Box D) (N : ℕ) (p : Par D) : Prog (Vec D) (St D N) := do
  let (pop, fit) ← defaultNumpyInit B N
  let alpha ← arr p.alpha N
  let gamma ← arr p.gamma N
  let theta ← arr p.theta N
  return ⟨pop, fit, pop, fit, alpha, gamma, theta, p.dn B.hi B.lo⟩

/-- The coordinates changed by a movement: a segment between two different cuts, or each one with probability `cr`
(aso.py:53, 56, 80, 83, 86, 89, 112, 115). `rng.choice(len(x), 2, replace=False)` raises `ValueError` for one coordinate. -/
def mask (seg : Prop) [Decidable seg] (cr : Fl) : Prog (Vec D) (Fin D → Bool) :=
  if seg then do
    let b ← choiceFin D 2
    return fun j => decide (min (b 0) (b 1) ≤ j ∧ j < max (b 0) (b 1))
  else do
    let r ← randVec D
    return fun j => decide (r j < cr)

/-- `_mp_c` (aso.py:36-58): movement by normal noise. -/
def mpC (x : Vec D) (f cr mp : Fl) : Prog (Vec D) (Vec D) := do
  let m ← mask (mp < lit 1 2) cr
  tabM D fun j => (if m j then do
    let z ← Prog.norm 0 1
    return x j + f * z
  else return x j)

/-- `_mp_s` (aso.py:61-91): coordinates of the best or of another individual. -/
def mpS (x xr xb : Vec D) (cr mp : Fl) : Prog (Vec D) (Vec D) := do
  let m ← mask (mp < lit 1 4 ∨ ¬ mp < lit 1 2 ∧ mp < lit 3 4) cr
  return fun j => if m j then (if mp < lit 1 2 then xb j else xr j) else x j

/-- `_mp_p` (aso.py:94-117): coordinates of the personal best. -/
def mpP (x xpb : Vec D) (cr mp : Fl) : Prog (Vec D) (Vec D) := do
  let m ← mask (mp < lit 1 2) cr
  return fun j => if m j then xpb j else x j

/-- The three repaired candidates of `elitism` and `crossover` (aso.py:144-148, 212-216). -/
def candidates (f cr : Fl) (x xpb xb xr : Vec D) (mc ms mp : Fl) : Prog (Vec D) (Fin 3 → Vec D) := do
  let a ← mpC x f cr mc
  let a ← Prog.repair a
  let b ← mpS x xr xb cr ms
  let b ← Prog.repair b
  let c ← mpP x xpb cr mp
  let c ← Prog.repair c
  return ![a, b, c]

/-- `combination(...)` (aso.py:120-221). In `crossover` the mixture of candidates and individual is not repaired. -/
def combine (c : Comb) (f cr : Fl) (x xpb xb xr : Vec D) (mc ms mp : Fl) : Prog (Vec D) (Vec D × Fl) :=
  match c with
  | .elitism => do
    let cs ← candidates f cr x xpb xb xr mc ms mp
    let fs ← evalRows cs
    let i ← argminIdx fs
    return (cs i, fs i)
  | .sequential => do
    let a ← mpC x f cr mc
    let a ← mpP a xpb cr mp
    let a ← mpS a xr xb cr ms
    let a ← Prog.repair a
    let v ← Prog.eval a
    return (a, v)
  | .crossover => do
    let cs ← candidates f cr x xpb xb xr mc ms mp
    let y ← tabM D fun j => do
      let r ← Prog.rand
      (if r < cr then do
        let k ← intFin 3
        return cs k j
      else return x j)
    let v ← Prog.eval y
    return (y, v)

/-- `_get_best_neighbor` (aso.py:458-481); without neighbours (distances that are NaN) `np.argmin` raises `ValueError`. -/
def neighbor (p : Par D) (s : St D N) (i : Fin N) : Prog (Vec D) (Fin N) :=
  argminRec s.fit ((List.finRange N).filter fun j => p.dn (s.pop i) (s.pop j) / s.rs ≤ p.nl)

/-- `_fi` (aso.py:401-419). -/
def fi (xf pbf bf alpha : Fl) : Fl := 1 - alpha * bf / xf - (1 - alpha) * pbf / xf

/-- `_ei` and `_ii` (aso.py:421-456). -/
def ei (xf nbf gamma : Fl) : Fl := 1 - Arith.fn .exp (-gamma * Fl.abs (xf - nbf))

/-- Body of the loop over the individuals (aso.py:600-612); `fuel` bounds the redraws of `self.integers(n, skip=[i])`. -/
def step (p : Par D) (fuel : ℕ) (s : St D N) (nb : Fin N → Fin N) (xb : Vec D) (fxb : Fl) (i : Fin N) : Prog (Vec D) (Vec D × Fl) := do
  let r ← integersSkip 0 N [i.val] fuel
  let xr ← Prog.ofExcept (if h : r < N then .ok (s.pop ⟨r, h⟩) else .error .indexError)
  combine p.comb p.f p.cr (s.pop i) (s.pb i) xb xr (fi (s.fit i) (s.pbf i) fxb (s.alpha i))
    (ei (s.fit i) (s.fit (nb i)) (s.gamma i)) (ei (s.fit i) (s.pbf i) (s.theta i))

/-- `run_iteration` (aso.py:545-629). -/
def iter (p : Par D) (fuel : ℕ) (s : St D N) (xb : Vec D) (fxb : Fl) : Prog (Vec D) (St D N × Vec D × Fl) := do
  let nb ← tabM N (neighbor p s)
  let new ← tabM N (step p fuel s nb xb fxb)
  let pb := fun i => if (new i).2 < s.pbf i then (new i).1 else s.pb i
  let pbf := fun i => if (new i).2 < s.pbf i then (new i).2 else s.pbf i
  let (xb, fxb) ← Prog.getBest (List.ofFn fun i => (new i).1) (List.ofFn fun i => (new i).2) xb fxb
  return ({ s with pop := fun i => (new i).1, fit := fun i => (new i).2, pb := pb, pbf := pbf }, xb, fxb)

/-- `AnarchicSocietyOptimization` with population size `N` (aso.py). -/
def alg (B : Box D) (N : ℕ) (p : Par D) (fuel : ℕ) : Alg (Vec D) where
  σ := St D N
  init := init B N p
  pop s := List.ofFn s.pop
  fit s := List.ofFn s.fit
  iter := iter p fuel

/-! ### Obligations -/

variable {C : Ctx (Vec D)} {g : Ghost (Vec D)}

omit [Arith] in
theorem arr_quiet (a : ArrayArg) (N : ℕ) : Quiet C (arr a N : Prog (Vec D) (Fin N → Fl)) := by
  refine .bindT ⟨fun g => ?_⟩ fun l => .pure' trivial
  rw [Prog.wp_ofExcept]
  refine ⟨fun _ _ => ⟨trivial, rfl⟩, fun h => ?_⟩
  unfold fullArray at h
  split at h
  · cases h
  · split at h
    · cases h
    · split at h
      · cases h
      · split at h <;> cases h
  · cases h

theorem mask_quiet (seg : Prop) [Decidable seg] (cr : Fl) : Quiet C (mask seg cr : Prog (Vec D) (Fin D → Bool)) := by
  unfold mask
  split <;> yields

theorem mpC_quiet (x : Vec D) (f cr mp : Fl) : Quiet C (mpC x f cr mp) := by
  unfold mpC
  refine .bindT (mask_quiet _ _) fun m => Yields.tabMT fun j => .ite (fun _ => ?_) fun _ => ?_ <;> yields

theorem mpS_quiet (x xr xb : Vec D) (cr mp : Fl) : Quiet C (mpS x xr xb cr mp) := by
  unfold mpS
  exact .bindT (mask_quiet _ _) fun m => .pure' trivial

theorem mpP_quiet (x xpb : Vec D) (cr mp : Fl) : Quiet C (mpP x xpb cr mp) := by
  unfold mpP
  exact .bindT (mask_quiet _ _) fun m => .pure' trivial

theorem candidates_good (f cr : Fl) (x xpb xb xr : Vec D) (mc ms mp : Fl) :
    Yields C (candidates f cr x xpb xb xr mc ms mp) fun cs => ∀ i, C.G (cs i) := by
  unfold candidates
  refine .bindT (mpC_quiet ..) fun a => .bind' Yields.repair fun a ha => .bindT (mpS_quiet ..) fun b => .bind' Yields.repair fun b hb =>
    .bindT (mpP_quiet ..) fun c => .bind' Yields.repair fun c hc => .pure' fun i => ?_
  match i with
  | 0 => exact ha
  | 1 => exact hb
  | 2 => exact hc

/-- Evaluations for one individual. -/
def Comb.cost : Comb → ℕ
  | .elitism => 3
  | _ => 1

/-- A point all of whose coordinates are those of allowed points is allowed. -/
def Pointwise (C : Ctx (Vec D)) : Prop := ∀ x : Vec D, (∀ j, ∃ y, C.G y ∧ x j = y j) → C.G x

theorem wp_combine (hP : Pointwise C) (c : Comb) (f cr : Fl) {x : Vec D} (hx : C.G x) (xpb xb xr : Vec D) (mc ms mp : Fl) {S : Fl → Prop} (hS : Cov C S g) :
    (combine c f cr x xpb xb xr mc ms mp).wp C (fun a g' => Cov C (fun u => S u ∨ u = a.2) g' ∧ C.Fit g'.b a.1 a.2 ∧ C.G a.1 ∧
      g'.c = g.c + c.cost) g := by
  cases c with
  | elitism =>
    simp only [combine, Prog.wp_bind']
    refine (candidates_good ..).wp fun cs hcs => ?_
    refine wp_evalRows hcs hS fun af g1 _ hb1 hf1 hc1 hn1 => ?_
    refine wp_argminIdx fun ib hmin => ⟨hc1.weaken fun hn u hu hne => ?_, hf1 ib, hcs ib, hn1⟩
    rcases hu with hu | ⟨i, rfl⟩
    · exact ⟨u, Or.inl hu, Fl.le_refl hne⟩
    · exact ⟨_, Or.inr rfl, hmin (fun j => hn _ _ (hf1 j).1) i⟩
  | sequential =>
    simp only [combine, Prog.wp_bind']
    refine (mpC_quiet ..).wp fun a _ => (mpP_quiet ..).wp fun a _ => (mpS_quiet ..).wp fun a _ => Yields.repair.wp fun y hy => ?_
    rw [Prog.wp_eval]
    exact ⟨hy, fun v hv => ⟨(hS.eval v).mono fun u hu => hu.symm, .new hv, hy, rfl⟩⟩
  | crossover =>
    simp only [combine, Prog.wp_bind']
    refine (candidates_good ..).wp fun cs hcs => ?_
    have h1 : Yields C (tabM D fun j => (do
        let r ← Prog.rand
        (if r < cr then do
          let k ← intFin 3
          return cs k j
        else return x j) : Prog (Vec D) Fl)) fun y => ∀ j, ∃ z, C.G z ∧ y j = z j :=
      Yields.tabM (P := fun j (v : Fl) => ∃ z, C.G z ∧ v = z j) fun j => .bindT Yields.rand.quiet fun r => .ite (fun _ => .bindT Yields.intFin.quiet fun k => .pure' ⟨_, hcs k, rfl⟩)
        fun _ => .pure' ⟨_, hx, rfl⟩
    refine h1.wp fun y hy => ?_
    rw [Prog.wp_eval]
    exact ⟨hP y hy, fun v hv => ⟨(hS.eval v).mono fun u hu => hu.symm, .new hv, hP y hy, rfl⟩⟩

theorem wp_step (ho : C.oof) (hP : Pointwise C) (p : Par D) (fuel : ℕ) {s : St D N} (hs : ∀ i, C.G (s.pop i)) (nb : Fin N → Fin N) (xb : Vec D) (fxb : Fl)
    (i : Fin N) {S : Fl → Prop} (hS : Cov C S g) :
    (step p fuel s nb xb fxb i).wp C (fun a g' => Cov C (fun u => S u ∨ u = a.2) g' ∧ C.Fit g'.b a.1 a.2 ∧ C.G a.1 ∧
      g'.c = g.c + p.comb.cost) g := by
  simp only [step, Prog.wp_bind']
  refine wp_integersSkip ho fun r _ hr _ => ?_
  rw [Prog.wp_ofExcept, dif_pos (by omega)]
  refine ⟨fun xr _ => ?_, nofun⟩
  exact wp_combine hP _ _ _ (hs i) _ _ _ _ _ _ hS

theorem neighbor_quiet (p : Par D) (s : St D N) (i : Fin N) : Quiet C (neighbor p s i) := ⟨fun g => wp_argminRec fun _ _ _ => ⟨trivial, rfl⟩⟩

/-- The obligations of anarchic society optimization; `crossover` needs that the points allowed may be mixed. -/
theorem verified (B : Box D) (N : ℕ) (p : Par D) (fuel : ℕ) :
    VerifiedIf Pointwise (alg B N p fuel) B.Mem true false (.exact N (N * p.comb.cost)) := by
  refine ⟨fun C s b => ∀ i, C.Fit b (s.pop i) (s.fit i) ∧ C.G (s.pop i), fun C hP hG _ ho => AlgOK.toW ⟨fun s b h => forall₂_ofFn fun i => (h i).1,
    fun g hg => ?_, ?_⟩⟩
  · simp only [alg, init, Prog.wp_bind']
    refine wp_initArr hG hg fun r g' _ h2 h3 h4 h5 => ?_
    exact (arr_quiet _ _).wp fun _ _ => (arr_quiet _ _).wp fun _ _ => (arr_quiet _ _).wp fun _ _ => ⟨fun i => ⟨h3 i, hG _ (h2 i)⟩, h4, h5⟩
  · intro s xb fxb g hI hF hc
    have hinc : Inc C xb fxb g := ⟨hF, hc⟩
    simp only [alg, iter, Prog.wp_bind']
    refine Yields.wp (P := fun _ => True) (Yields.tabMT fun i => neighbor_quiet p s i) fun nb _ => ?_
    refine Prog.wp_mono (fun new g1 h => ?_) (Prog.wp_below (wp_tabM_cov (fun _ a => a.1) (fun _ a => a.2) (fun _ a => C.G a.1) p.comb.cost hinc.cov
      fun i g S hS => wp_step (ho rfl) hP p fuel (fun i => (hI i).2) nb xb fxb i hS))
    obtain ⟨⟨h1, h2, h3, h4⟩, hb⟩ := h
    exact wp_getBest_arr h2 (hinc.toFit.mono hb) h1 fun b1 hi1 => ⟨fun i => ⟨h2 i, h3 i⟩, hi1.fit, hi1.eq, Cost.ok_exact h4⟩

/-! ### C34 -/

theorem iter_records (p : Par D) (fuel : ℕ) (s : St D N) (xb : Vec D) (fxb : Fl) (g : Ghost (Vec D)) :
    (iter p fuel s xb fxb).wp Ctx.any (fun r _ => ∀ i, Records (s.pb i, s.pbf i) (r.1.pop i, r.1.fit i) (r.1.pb i, r.1.pbf i)) g := by
  simp only [iter, Prog.wp_bind']
  refine Prog.wp_any _ (fun nb g => Prog.wp_any _ (fun new g => Prog.wp_any _ (fun b g i => ?_) _) _) _
  simp only [Records]
  by_cases hu : (new i).2 < s.pbf i
  · simp [hu]
  · simp [hu]

/-- C34: at the head of every iteration, the personal best of individual `i` is a position the individual has had, with the
fitness it had there, and no fitness value the individual has had is better. `hist` are all states so far, newest first. -/
theorem C34_aso (B : Box D) (N : ℕ) (p : Par D) (fuel : ℕ) (env : Env (Vec D)) (ncb : ℕ)
    (r : St D N × Vec D × Fl) (hist : List (St D N × Vec D × Fl)) (w : World (Vec D))
    (h : (alg B N p fuel).Trace env ncb (r :: hist) w) (i : Fin N) :
    (∃ t ∈ r :: hist, r.1.pb i = t.1.pop i ∧ r.1.pbf i = t.1.fit i) ∧ ∀ t ∈ r :: hist, ¬ t.1.fit i < r.1.pbf i := by
  have := h.records (fun (s : St D N) i => (s.pop i, s.fit i)) (fun (s : St D N) i => (s.pb i, s.pbf i))
    (fun g => by
      simp only [alg, init, Prog.wp_bind']
      exact Prog.wp_any _ (fun a g => Prog.wp_any _ (fun _ g => Prog.wp_any _ (fun _ g => Prog.wp_any _ (fun _ g => rfl) _) _) _) _)
    (fun (r : St D N × Vec D × Fl) g => iter_records p fuel r.1 r.2.1 r.2.2 g) i
  obtain ⟨⟨t, ht, e⟩, h2⟩ := this
  exact ⟨⟨t, ht, (Prod.mk.inj e).1, (Prod.mk.inj e).2⟩, h2⟩

/-! ### C70: problems with one coordinate, populations with one individual -/

theorem mpP_stuck (hD : D < 2) {mp : Fl} (h : mp < lit 1 2) (x xpb : Vec D) (cr : Fl) (Q : Vec D → Ghost (Vec D) → Prop) :
    (mpP x xpb cr mp).wp Ctx.any Q g := by
  have : (mask (mp < lit 1 2) cr : Prog (Vec D) (Fin D → Bool)) = (Prog.throw .valueError >>= fun b => pure b) := by
    unfold mask choiceFin
    rw [if_pos h, dif_neg (by omega)]
    rfl
  simp only [mpP, this, Prog.wp_bind', Prog.wp_throw]
  exact nofun

theorem combine_stuck (hD : D < 2) {mp : Fl} (h : mp < lit 1 2) (c : Comb) (f cr : Fl) (x xpb xb xr : Vec D) (mc ms : Fl)
    (Q : Vec D × Fl → Ghost (Vec D) → Prop) : (combine c f cr x xpb xb xr mc ms mp).wp Ctx.any Q g := by
  have hc : ∀ (g : Ghost (Vec D)) Q, (candidates f cr x xpb xb xr mc ms mp).wp Ctx.any Q g := fun g Q => by
    simp only [candidates, Prog.wp_bind']
    exact Prog.wp_any _ (fun _ _ => Prog.wp_any _ (fun _ _ => Prog.wp_any _ (fun _ _ => Prog.wp_any _ (fun _ _ => mpP_stuck hD h _ _ _ _) _) _) _) _
  cases c with
  | elitism => simp only [combine, Prog.wp_bind']; exact hc _ _
  | sequential =>
    simp only [combine, Prog.wp_bind']
    exact Prog.wp_any _ (fun _ _ => mpP_stuck hD h _ _ _ _) _
  | crossover => simp only [combine, Prog.wp_bind']; exact hc _ _

/-- C70 is false: with one coordinate an iteration can only be completed if no individual has an internal irregularity index
`1 - exp(-theta * |f - personal best|)` below 0.5. -/
theorem C70_dimension_false (hD : D < 2) (B : Box D) (N : ℕ) (p : Par D) (fuel : ℕ) (env : Env (Vec D)) {ncb : ℕ}
    {hist : List (St D N × Vec D × Fl)} {w : World (Vec D)} (ht : (alg B N p fuel).Trace env ncb hist w) :
    hist.IsChain fun _ r => ∀ i, ¬ 1 - Arith.fn .exp (-(r.1.theta i) * Fl.abs (r.1.fit i - r.1.pbf i)) < lit 1 2 := by
  refine Alg.Trace.chain (A := alg B N p fuel) ht
    (R := fun _ (r : St D N × Vec D × Fl) => ∀ i, ¬ 1 - Arith.fn .exp (-(r.1.theta i) * Fl.abs (r.1.fit i - r.1.pbf i)) < lit 1 2) fun r g => ?_
  change (iter p fuel r.1 r.2.1 r.2.2).wp Ctx.any (fun _ _ => ∀ i, ¬ 1 - Arith.fn .exp (-(r.1.theta i) * Fl.abs (r.1.fit i - r.1.pbf i)) < lit 1 2) g
  simp only [iter, Prog.wp_bind']
  refine Prog.wp_any _ (fun nb g => ?_) _
  refine Prog.wp_mono (fun new g h => Prog.wp_any _ (fun b g i hi => h.2 i hi) _) (wp_tabM (fun _ _ => True)
    (fun i _ => ¬ 1 - Arith.fn .exp (-(r.1.theta i) * Fl.abs (r.1.fit i - r.1.pbf i)) < lit 1 2) trivial fun i g _ => ?_)
  by_cases hi : 1 - Arith.fn .exp (-(r.1.theta i) * Fl.abs (r.1.fit i - r.1.pbf i)) < lit 1 2
  · simp only [step, Prog.wp_bind']
    exact Prog.wp_any _ (fun _ _ => Prog.wp_any _ (fun _ _ => combine_stuck hD hi _ _ _ _ _ _ _ _ _ _) _) _
  · exact Prog.wp_any _ (fun _ _ => ⟨trivial, hi⟩) _

omit [Arith] in
theorem chain_stuck {α : Type} {R : α → α → Prop} {l : List α} (h : l.IsChain R) (hl : ∀ r ∈ l.getLast?, ∀ r', ¬ R r' r) : l.length ≤ 1 := by
  induction l with
  | nil => simp
  | cons a l ih =>
    cases l with
    | nil => simp
    | cons b l =>
      rw [List.isChain_cons_cons] at h
      have := ih h.2 (by simpa using hl)
      cases l with
      | nil => exact absurd h.1 (hl b rfl a)
      | cons c l => simp at this

omit [Arith] in
/-- C70 is false: without rounding and with finite fitness values, no run on a problem with one coordinate completes its first
iteration. -/
theorem C70_first_false {fn : Fn → Fl → Fl} (hexp : fn .exp (.fin 0) = .fin 1) (hD : D < 2) (B : Box D) (p : Par D) (fuel : ℕ)
    (env : Env (Vec D)) {ncb : ℕ} {hist : List (St D N × Vec D × Fl)} {w : World (Vec D)}
    (ht : (@alg (exactArith fn) D B N p fuel).Trace env ncb hist w)
    (hfin : ∀ r ∈ hist.getLast?, ∃ i, (∃ q, r.1.fit i = .fin q) ∧ ∃ q, r.1.theta i = .fin q) : hist.length = 1 := by
  letI := exactArith fn
  have h1 := ht.first (P := fun s : St D N => s.pbf = s.fit) fun g => by
    simp only [alg, init, Prog.wp_bind']
    exact Prog.wp_any _ (fun a g => Prog.wp_any _ (fun _ g => Prog.wp_any _ (fun _ g => Prog.wp_any _ (fun _ g => rfl) _) _) _) _
  have h2 := chain_stuck (C70_dimension_false hD B N p fuel env ht) fun r hr _ h => by
    obtain ⟨i, ⟨q, hq⟩, t, hθ⟩ := hfin r hr
    have := h i
    rw [h1 r hr, hq, hθ] at this
    apply this
    have e : Fl.abs ((Fl.fin q : Fl) - Fl.fin q) = Fl.fin 0 := by
      change Fl.abs (Fl.fin (q + -q)) = _
      simp [Fl.abs]
    rw [e]
    change (Fl.fin 1 : Fl) - fn .exp (Fl.fin (-t * 0)) < _
    rw [mul_zero, hexp]
    change Fl.fin (1 + -1) < Fl.fin _
    rw [Fl.fin_lt_fin]
    norm_num
  have h3 : hist ≠ [] := by
    intro h
    exact ht.ne_nil h
  have := List.length_pos_iff.2 h3
  omega

/-- C70 is false: with one individual no iteration is ever completed (`self.integers(1, skip=[0])` calls itself for ever). -/
theorem C70_single_false (B : Box D) (p : Par D) (fuel : ℕ) (env : Env (Vec D)) {ncb : ℕ}
    {hist : List (St D 1 × Vec D × Fl)} {w : World (Vec D)} (ht : (alg B 1 p fuel).Trace env ncb hist w) : hist.length ≤ 1 := by
  refine chain_stuck (R := fun _ _ => False) (Alg.Trace.chain (A := alg B 1 p fuel) ht fun r g => ?_) fun _ _ _ => id
  change (iter p fuel r.1 r.2.1 r.2.2).wp Ctx.any (fun _ _ => False) g
  simp only [iter, Prog.wp_bind']
  refine Prog.wp_any _ (fun nb g => ?_) _
  refine Prog.wp_mono (fun new g h => (h.2 (0 : Fin 1)).elim) (wp_tabM (fun _ _ => True) (fun _ _ => False) trivial fun i g _ => ?_)
  simp only [step, Prog.wp_bind']
  refine wp_integersSkip trivial fun r _ hr hs => ?_
  have : i.val = r := by omega
  exact absurd (List.mem_singleton.2 this.symm) hs

/-! ### Runs -/

/-- Parameters for the examples. -/
def Ex.par (c : Comb) : Par D := ⟨.seq [.fin 1, .fin (83 / 100)], .seq [.fin (117 / 100), .fin (56 / 100)], .seq [.fin (932 / 1000)],
  euclid, .fin 1, .fin (12 / 10), .fin (1 / 4), c⟩

example (c : Comb) : ∃ hist w, (@alg NiaPy.Ex.arith 2 (NiaPy.Ex.box 2) 3 (@Ex.par NiaPy.Ex.arith 2 c) 9).Trace NiaPy.Ex.env2 1 hist w ∧ hist.length = 3 := by
  let := NiaPy.Ex.arith
  refine (verified (NiaPy.Ex.box 2) 3 (Ex.par c) 9).exists_trace NiaPy.Ex.env2 (P := fun _ => True) (sh := True) (fun C _ _ h _ _ x _ => by rw [h]; trivial) (fuel := 5) ?_
  cases c <;> decide +kernel

/-- The hypotheses of the refutations of C70 hold of runs with one coordinate and with one individual. -/
example (c : Comb) : ∃ hist w, (@alg NiaPy.Ex.arith 1 (NiaPy.Ex.box 1) 3 (@Ex.par NiaPy.Ex.arith 1 c) 9).Trace (NiaPy.Ex.env2 0) 1 hist w ∧ hist.length = 1 := by
  let := NiaPy.Ex.arith
  refine (verified (NiaPy.Ex.box 1) 3 (Ex.par c) 9).exists_trace (NiaPy.Ex.env2 0) (P := fun _ => True) (sh := True) (fun C _ _ h _ _ x _ => by rw [h]; trivial) (fuel := 5) ?_
  cases c <;> decide +kernel

omit [Arith] in
/-- C70 is false: a run on a problem with one coordinate ends with `ValueError`. -/
theorem C70_run_false : ((@alg NiaPy.Ex.arith 1 (NiaPy.Ex.box 1) 3 (@Ex.par NiaPy.Ex.arith 1 .elitism) 9).exec NiaPy.Ex.env2 true 0 5).1 = .error .valueError := by
  have h : (match ((@alg NiaPy.Ex.arith 1 (NiaPy.Ex.box 1) 3 (@Ex.par NiaPy.Ex.arith 1 .elitism) 9).exec NiaPy.Ex.env2 true 0 5).1 with
    | .error .valueError => true | _ => false) = true := by decide +kernel
  split at h
  · assumption
  · cases h

/-! ### C81: movement policies -/

/-- What a movement with the given policy, crossover rate and target does to an individual. -/
structure Moves (seg : Prop) (cr : Fl) (x y : Vec D) (target : Fin D → Fl → Prop) : Prop where
  coord : ∀ j, y j = x j ∨ target j (y j)
  /-- A segment that is not empty and does not contain the last coordinate. -/
  segment : seg → ∃ a b : Fin D, a < b ∧ ∀ j, (a ≤ j ∧ j < b → target j (y j)) ∧ (¬ (a ≤ j ∧ j < b) → y j = x j)
  none : ¬ seg → cr ≤ .fin 0 → y = x
  all : ¬ seg → .fin 1 ≤ cr → ∀ j, target j (y j)

theorem mask_post (seg : Prop) [Decidable seg] (cr : Fl) {env : Env (Vec D)} : Post env (mask seg cr : Prog (Vec D) (Fin D → Bool)) fun m =>
    (seg → ∃ a b : Fin D, a < b ∧ ∀ j, m j = true ↔ a ≤ j ∧ j < b) ∧ (¬ seg → cr ≤ .fin 0 → ∀ j, m j = false) ∧ (¬ seg → .fin 1 ≤ cr → ∀ j, m j = true) := by
  unfold mask
  split
  · rename_i hseg
    refine .bind' (.yields Yields.choiceFin) fun b hb => .pure' ⟨fun _ => ⟨min (b 0) (b 1), max (b 0) (b 1), ?_, fun j => by simp⟩, fun h => absurd hseg h, fun h => absurd hseg h⟩
    have : b 0 ≠ b 1 := fun h => by have := hb h; simp at this
    rcases lt_or_gt_of_ne this with h | h
    · rw [min_eq_left h.le, max_eq_right h.le]; exact h
    · rw [min_eq_right h.le, max_eq_left h.le]; exact h
  · rename_i hseg
    refine .bind' (P := fun r : Vec D => ∀ j, .fin 0 ≤ r j ∧ r j < .fin 1) (.tabM (P := fun _ (v : Fl) => .fin 0 ≤ v ∧ v < .fin 1) fun _ => .rand fun r h0 h1 => ⟨h0, h1⟩) fun r hr =>
      .pure' ⟨fun h => absurd h hseg, fun _ h j => ?_, fun _ h j => ?_⟩
    · simp only [decide_eq_false_iff_not]
      exact Fl.not_lt_of_le (Fl.le_trans h (hr j).1)
    · simp only [decide_eq_true_eq]
      exact Fl.lt_of_lt_of_le (hr j).2 h

omit [Arith] in
theorem Moves.of {seg : Prop} {cr : Fl} {x y : Vec D} {t : Fin D → Fl → Prop} {m : Fin D → Bool}
    (hm : (seg → ∃ a b : Fin D, a < b ∧ ∀ j, m j = true ↔ a ≤ j ∧ j < b) ∧ (¬ seg → cr ≤ .fin 0 → ∀ j, m j = false) ∧ (¬ seg → .fin 1 ≤ cr → ∀ j, m j = true))
    (h1 : ∀ j, m j = true → t j (y j)) (h2 : ∀ j, m j = false → y j = x j) : Moves seg cr x y t where
  coord j := by
    cases h : m j
    · exact Or.inl (h2 j h)
    · exact Or.inr (h1 j h)
  segment hs := by
    obtain ⟨a, b, hab, h⟩ := hm.1 hs
    exact ⟨a, b, hab, fun j => ⟨fun hj => h1 j ((h j).2 hj), fun hj => h2 j (by
      cases hmj : m j
      · rfl
      · exact absurd ((h j).1 hmj) hj)⟩⟩
  none hs hc := funext fun j => h2 j (hm.2.1 hs hc j)
  all hs hc j := h1 j (hm.2.2 hs hc j)

/-- **C81.** The movement to the personal best takes coordinates of the personal best only: a segment, or each one with the probability `cr`
(all of them for `cr = 1`, none for `cr = 0`). -/
theorem C81_personal {env : Env (Vec D)} (x xpb : Vec D) (cr mp : Fl) :
    Post env (mpP x xpb cr mp) fun y => Moves (mp < lit 1 2) cr x y fun j v => v = xpb j :=
  .bind' (mask_post _ _) fun _ hm => .pure' (.of hm (fun _ h => if_pos h) fun j h => by simp [h])

/-- **C81.** The movement to others takes coordinates of the best solution, if the index is below one half, and of another individual
otherwise. -/
theorem C81_others {env : Env (Vec D)} (x xr xb : Vec D) (cr mp : Fl) : Post env (mpS x xr xb cr mp) fun y =>
    Moves (mp < lit 1 4 ∨ ¬ mp < lit 1 2 ∧ mp < lit 3 4) cr x y fun j v => v = if mp < lit 1 2 then xb j else xr j :=
  .bind' (mask_post _ _) fun _ hm => .pure' (.of hm (fun _ h => if_pos h) fun j h => by simp [h])

/-- **C81.** The movement by noise changes a segment, or each coordinate with the probability `cr`. -/
theorem C81_noise {env : Env (Vec D)} (x : Vec D) (f cr mp : Fl) : Post env (mpC x f cr mp) fun y =>
    Moves (mp < lit 1 2) cr x y fun j v => ∃ z, v = x j + f * z := by
  refine .bind' (mask_post _ _) fun m hm => (Post.tabM (P := fun j (v : Fl) => (m j = true → ∃ z, v = x j + f * z) ∧ (m j = false → v = x j)) fun j => ?_).mono fun y hy =>
    .of hm (fun j => (hy j).1) fun j => (hy j).2
  cases h : m j
  · exact .pure' ⟨nofun, fun _ => rfl⟩
  · exact .bind' .any fun z _ => .pure' ⟨fun _ => ⟨z, rfl⟩, nofun⟩

omit [Arith] in
/-- **C81.** A movement of a segment never changes the last coordinate. -/
theorem C81_last {D : ℕ} {seg : Prop} {cr : Fl} {x y : Vec (D + 1)} {t : Fin (D + 1) → Fl → Prop} (h : Moves seg cr x y t) (hs : seg) : y (Fin.last D) = x (Fin.last D) := by
  obtain ⟨a, b, -, h⟩ := h.segment hs
  exact (h _).2 fun hj => absurd (Fin.le_last b) (not_le.2 hj.2)

omit [Arith] in
/-- A movement of a segment that takes place. -/
example : letI := NiaPy.Ex.arith
    (match ((mpP (D := 3) (fun _ => .fin 0) (fun _ => .fin 1) (.fin 0) (.fin 0)).run NiaPy.Ex.env2 (World.init .minimization)).1 with
    | .ok y => decide (∃ j, y j = .fin 1)
    | .error _ => false) = true := by decide +kernel

end NiaPy.ASO
