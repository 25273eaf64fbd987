import Verif.Loose
import Verif.Congr

/-!
# Nelder-Mead method (`niapy/algorithms/other/nmm.py`)

The points of the simplex are evaluated without being repaired.
-/

namespace NiaPy.NM
open NiaPy
variable [Arith] {D N : ℕ}

/-- Parameters (nmm.py:60-78): coefficients of reflection, expansion, contraction and shrinking. -/
structure Par where
  alpha : Fl
  gamma : Fl
  rho : Fl
  sigma : Fl

/-- State of a run. -/
structure St (D N : ℕ) where
  pop : Fin N → Vec D
  fit : Fin N → Fl

/-- The size of the population (nmm.py:123): at least the dimension. -/
def size (D : ℕ) : Option ℕ → ℕ
  | none => D
  | some n => if n < D then D else n

/-- `init_pop` (nmm.py:110-126), the same as `default_numpy_init`. -/
def init (B : Box D) (N : ℕ) : Prog (Vec D) (St D N) := do
  let (pop, fit) ← defaultNumpyInit B N
  return ⟨pop, fit⟩

/-- The centroid of all points but the last (nmm.py:142); `0 / 0` if there is only one point. -/
def centroid (pop : Fin N → Vec D) : Vec D := fun j =>
  (vsum fun i : Fin (N - 1) => pop ⟨i, by omega⟩ j) / Fl.ofNat (N - 1)

/-- `x0 + c * (x0 - x)` (nmm.py:143, 149, 156). -/
def away (c : Fl) (x0 x : Vec D) : Vec D := fun j => x0 j + c * (x0 j - x j)

/-- `population_fitness[0] >= rs < population_fitness[-2]` (nmm.py:145); the second comparison is made only if the first one
holds and raises `IndexError` if there is only one point. -/
def reflects (s : St D N) (h : 0 < N) (rs : Fl) : Prog (Vec D) Bool :=
  if rs ≤ s.fit ⟨0, h⟩ then
    if h2 : 2 ≤ N then return decide (rs < s.fit ⟨N - 2, by omega⟩) else .throw .indexError
  else return false

/-- `population[-1], population_fitness[-1] = x, v` -/
def setLast (s : St D N) (h : 0 < N) (x : Vec D) (v : Fl) : St D N :=
  ⟨Function.update s.pop ⟨N - 1, by omega⟩ x, Function.update s.fit ⟨N - 1, by omega⟩ v⟩

/-- Expansion (nmm.py:149-155). -/
def expand (p : Par) (s : St D N) (h : 0 < N) (x0 xr : Vec D) (rs : Fl) : Prog (Vec D) (St D N) := do
  let xe := away p.gamma x0 (s.pop ⟨N - 1, by omega⟩)
  let re ← Prog.eval xe
  return if re < rs then setLast s h xe re else setLast s h xr rs

/-- The rows of the simplex but the first, moved towards it (nmm.py:161). -/
def shrunk (p : Par) (s : St D N) (i : Fin (N - 1)) : Vec D := fun j =>
  s.pop ⟨0, by have := i.2; omega⟩ j + p.sigma * (s.pop ⟨i + 1, by omega⟩ j - s.pop ⟨0, by have := i.2; omega⟩ j)

/-- `a[1:] = b` -/
def setTail {α : Type} (a : Fin N → α) (b : Fin (N - 1) → α) : Fin N → α := fun i => if h : i.1 = 0 then a i else b ⟨i - 1, by omega⟩

/-- Shrinking (nmm.py:161-164); `ValueError` if there is only one row. -/
def shrink (p : Par) (s : St D N) : Prog (Vec D) (St D N) := do
  let f ← evalRows (shrunk p s)
  return ⟨setTail s.pop (shrunk p s), setTail s.fit f⟩

/-- Contraction, or else shrinking (nmm.py:156-164). -/
def contract (p : Par) (s : St D N) (h : 0 < N) (x0 : Vec D) : Prog (Vec D) (St D N) := do
  let xc := away p.rho x0 (s.pop ⟨N - 1, by omega⟩)
  let rc ← Prog.eval xc
  if rc < s.fit ⟨N - 1, by omega⟩ then return setLast s h xc rc else shrink p s

/-- `method` (nmm.py:128-164). -/
def method (p : Par) (s : St D N) : Prog (Vec D) (St D N) :=
  if h : 0 < N then do
    let x0 := centroid s.pop
    let xr := away p.alpha x0 (s.pop ⟨N - 1, by omega⟩)
    let rs ← Prog.eval xr
    let b ← reflects s h rs
    if b = true then return setLast s h xr rs
    else if rs < s.fit ⟨0, h⟩ then expand p s h x0 xr rs
    else contract p s h x0
  else .throw .indexError

/-- `run_iteration` (nmm.py:166-190). -/
def iter (p : Par) (s : St D N) (xb : Vec D) (fxb : Fl) : Prog (Vec D) (St D N × Vec D × Fl) := do
  let si ← sortIdx s.fit
  let s ← method p ⟨fun i => s.pop (si i), fun i => s.fit (si i)⟩
  let (xb, fxb) ← Prog.getBest (List.ofFn s.pop) (List.ofFn s.fit) xb fxb
  return (s, xb, fxb)

/-- The Nelder-Mead method with `N` points (nmm.py). -/
def alg (B : Box D) (N : ℕ) (p : Par) : Alg (Vec D) where
  σ := St D N
  init := init B N
  pop s := List.ofFn s.pop
  fit s := List.ofFn s.fit
  iter := iter p

/-! ### Obligations -/

variable {C : Ctx (Vec D)} {g : Ghost (Vec D)}

/-- What holds after `method`. -/
def Ok (C : Ctx (Vec D)) (N n : ℕ) (fxb : Fl) (c : ℕ) (s : St D N) (g : Ghost (Vec D)) : Prop :=
  (∀ i, C.Fit g.b (s.pop i) (s.fit i)) ∧ Cov C (fun u => u = fxb ∨ ∃ i, u = s.fit i) g ∧ c + 1 ≤ g.c ∧ g.c ≤ c + n

omit [Arith] in
theorem ok_setLast {n : ℕ} {fxb : Fl} {c : ℕ} {s : St D N} {h : 0 < N} {x : Vec D} {v : Fl} (hf : ∀ i, C.Fit g.b (s.pop i) (s.fit i))
    (hx : C.Fit g.b x v) (hc : Cov C (fun u => u = fxb ∨ u = v) g) (h1 : c + 1 ≤ g.c) (h2 : g.c ≤ c + n) :
    Ok C N n fxb c (setLast s h x v) g :=
  ⟨aligned_update hf _ hx, hc.mono fun u hu => hu.imp_right fun hu => ⟨⟨N - 1, by omega⟩, by simp [setLast, hu]⟩, h1, h2⟩

theorem wp_shrink {p : Par} {s : St D N} {fxb : Fl} {c : ℕ} (hG : ∀ x, C.G x) (hf : ∀ i, C.Fit g.b (s.pop i) (s.fit i))
    (hc : Cov C (· = fxb) g) (h1 : c + 1 ≤ g.c) (h2 : g.c ≤ c + 2) : (shrink p s).wp C (Ok C N (N + 1) fxb c) g := by
  simp only [shrink, Prog.wp_bind']
  refine wp_evalRows (fun _ => hG _) hc fun r g' h0 hb hr hc' hn => ⟨fun i => ?_, hc'.mono fun u hu => ?_, by omega, by omega⟩
  · simp only [setTail]
    split
    · exact (hf i).mono hb
    · exact hr _
  · refine hu.imp_right fun ⟨i, hi⟩ => ⟨⟨i + 1, by omega⟩, ?_⟩
    simp [setTail, hi]

/-- The obligations of `method`. -/
theorem wp_method {p : Par} {s : St D N} {xb : Vec D} {fxb : Fl} (hG : ∀ x, C.G x) (hf : ∀ i, C.Fit g.b (s.pop i) (s.fit i))
    (hinc : Inc C xb fxb g) : (method p s).wp C (Ok C N (N + 1) fxb g.c) g := by
  have hle : ∀ i, C.NN → fxb ≤ s.fit i := fun i hn => by
    rw [hinc.eq hn]; exact (hf i).2 hn (by rw [← hinc.eq hn]; exact hn _ _ hinc.fit)
  unfold method
  split
  swap
  · exact nofun
  rename_i h
  have hN : 2 ≤ N + 1 := by omega
  simp only [Prog.wp_bind']
  rw [Prog.wp_eval]
  refine ⟨hG _, fun v hv => ?_⟩
  have hcov := hinc.cov.eval v
  have hf1 := fit_eval hf v
  have acc : ∀ hN : 0 < N, Ok C N (N + 1) fxb g.c (setLast s hN (away p.alpha (centroid s.pop) (s.pop ⟨N - 1, by omega⟩)) v) (g.eval v) :=
    fun hN => ok_setLast hf1 (.new hv) (hcov.mono fun u hu => hu.symm) (by simp only [Ghost.eval]; omega) (by simp only [Ghost.eval]; omega)
  have rest : ¬ v < s.fit ⟨0, h⟩ → (contract p s h (centroid s.pop)).wp C (Ok C N (N + 1) fxb g.c) (g.eval v) := by
    intro hnl
    have hcov1 : Cov C (· = fxb) (g.eval v) := hcov.weaken fun hn u hu hne => by
      rcases hu with rfl | hu
      · exact ⟨_, rfl, Fl.le_trans (hle ⟨0, h⟩ hn) (Fl.le_of_not_lt hne (hn _ _ (hf ⟨0, h⟩).1) hnl)⟩
      · exact ⟨_, hu, Fl.le_refl hne⟩
    simp only [contract, Prog.wp_bind']
    rw [Prog.wp_eval]
    refine ⟨hG _, fun v2 hv2 => ?_⟩
    have hcov2 := hcov1.eval v2
    rw [wp_ite]
    refine ⟨fun _ => ?_, fun hnl2 => ?_⟩
    · exact ok_setLast (fit_eval hf1 v2) (.new hv2) (hcov2.mono fun u hu => hu.symm) (by simp only [Ghost.eval]; omega) (by simp only [Ghost.eval]; omega)
    · refine wp_shrink hG (fit_eval hf1 v2) (hcov2.weaken fun hn u hu hne => ?_) (by simp only [Ghost.eval]; omega) (by simp only [Ghost.eval]; omega)
      rcases hu with rfl | hu
      · exact ⟨_, rfl, Fl.le_trans (hle _ hn) (Fl.le_of_not_lt hne (hn _ _ (hf _).1) hnl2)⟩
      · exact ⟨_, hu, Fl.le_refl hne⟩
  have expd : (if v < s.fit ⟨0, h⟩ then expand p s h (centroid s.pop) (away p.alpha (centroid s.pop) (s.pop ⟨N - 1, by omega⟩)) v
      else contract p s h (centroid s.pop)).wp C (Ok C N (N + 1) fxb g.c) (g.eval v) := by
    rw [wp_ite]
    refine ⟨fun _ => ?_, rest⟩
    simp only [expand, Prog.wp_bind']
    rw [Prog.wp_eval]
    refine ⟨hG _, fun v2 hv2 => ?_⟩
    have hcov2 := hcov.eval v2
    dsimp only [Prog.wp_pure, Prog.pure_def]
    split
    · rename_i hlt
      refine ok_setLast (fit_eval hf1 v2) (.new hv2) (hcov2.weaken fun hn u hu hne => ?_) (by simp only [Ghost.eval]; omega) (by simp only [Ghost.eval]; omega)
      rcases hu with rfl | rfl | rfl
      · exact ⟨_, Or.inr rfl, Fl.le_refl hne⟩
      · exact ⟨_, Or.inr rfl, Fl.le_of_lt hlt⟩
      · exact ⟨_, Or.inl rfl, Fl.le_refl hne⟩
    · rename_i hlt
      refine ok_setLast (fit_eval hf1 v2) ((Ctx.Fit.new hv).eval _) (hcov2.weaken fun hn u hu hne => ?_) (by simp only [Ghost.eval]; omega) (by simp only [Ghost.eval]; omega)
      rcases hu with rfl | rfl | rfl
      · exact ⟨_, Or.inr rfl, Fl.le_of_not_lt hne (hn _ _ hv) hlt⟩
      · exact ⟨_, Or.inr rfl, Fl.le_refl hne⟩
      · exact ⟨_, Or.inl rfl, Fl.le_refl hne⟩
  unfold reflects
  split
  · split
    · simp only [Prog.pure_def, Prog.wp_pure]
      rw [wp_ite]
      exact ⟨fun _ => acc h, fun _ => expd⟩
    · exact nofun
  · exact expd

/-- The obligations of the Nelder-Mead method, if evaluations outside of the bounds are allowed: `N` evaluations in the beginning,
between one and `N + 1` per iteration. -/
theorem verified (B : Box D) (N : ℕ) (p : Par) :
    VerifiedIf (fun C => ∀ x, C.G x) (alg B N p) B.Mem true true ⟨N, 1, some (N + 1)⟩ := by
  refine ⟨fun C s b => ∀ i, C.Fit b (s.pop i) (s.fit i), fun C hC hG hent _ => AlgOK.toW ⟨fun s b h => forall₂_ofFn h, fun g hg => ?_, ?_⟩⟩
  · simp only [alg, init, Prog.wp_bind']
    exact wp_initArr hG hg fun r g' _ _ h3 h4 h5 => ⟨h3, h4, h5⟩
  · intro s xb fxb g hI hF hc
    have hinc : Inc C xb fxb g := ⟨hF, hc⟩
    simp only [alg, iter, Prog.wp_bind']
    refine Yields.sortIdx.quiet.wp fun si _ => ?_
    refine Prog.wp_mono (fun s1 g1 h1 => ?_) (Prog.wp_below (wp_method (s := ⟨fun i => s.pop (si i), fun i => s.fit (si i)⟩) hC (fun i => hI _) hinc))
    obtain ⟨⟨e1, e2, e3, e4⟩, hb⟩ := h1
    exact wp_getBest_arr e1 (hinc.toFit.mono hb) e2 fun b hb => ⟨e1, hb.fit, hb.eq, e3, fun h hh => by cases hh; exact e4⟩

/-! ### C65: expansion -/

omit [Arith] in
theorem not_nan_setLast {s : St D N} {h : 0 < N} {x : Vec D} {v : Fl} (hs : ∀ i, s.fit i ≠ .nan) (hv : v ≠ .nan) :
    ∀ i, (setLast s h x v).fit i ≠ .nan := fun i => by
  simp only [setLast, Function.update_apply]
  split
  · exact hv
  · exact hs i

theorem post_eval_nn {env : Env (Vec D)} (hnn : NoNaN env) {x : Vec D} : Post env (Prog.eval x) fun v => v ≠ .nan :=
  Post.eval fun v hv => by
    rcases hv with rfl | ⟨k, r, hr, rfl⟩
    · simp
    · have := hnn k x r hr
      cases env.opt <;> cases r <;> simp_all [OptType.mul]

theorem post_evalRows_nn {env : Env (Vec D)} (hnn : NoNaN env) {n : ℕ} {xs : Fin n → Vec D} :
    Post env (evalRows xs) fun v => ∀ i, v i ≠ .nan := by
  unfold evalRows
  split
  · intro w w' a ha; cases ha
  · exact Post.tabM (α := Fl) (P := fun _ v => v ≠ .nan) fun _ => post_eval_nn hnn

theorem post_init_nn {env : Env (Vec D)} (hnn : NoNaN env) (B : Box D) (N : ℕ) : Post env (init B N) fun s => ∀ i, s.fit i ≠ .nan := by
  unfold init
  refine Post.bind' (P := fun r => ∀ i, r.2 i ≠ .nan) ?_ fun r hr => Post.pure' hr
  unfold defaultNumpyInit
  refine Post.bind' Post.any fun pop _ => ?_
  split
  · intro w w' a ha; cases ha
  · exact Post.bind' (Post.tabM (α := Fl) (P := fun _ v => v ≠ .nan) fun _ => post_eval_nn hnn) fun r hr => Post.pure' hr

theorem post_method_nn {env : Env (Vec D)} (hnn : NoNaN env) (p : Par) {s : St D N} (hs : ∀ i, s.fit i ≠ .nan) :
    Post env (method p s) fun s => ∀ i, s.fit i ≠ .nan := by
  unfold method
  split
  swap
  · intro w w' a ha; cases ha
  rename_i h
  refine Post.bind' (post_eval_nn hnn) fun rs hrs => Post.bind' Post.any fun b _ => ?_
  split
  · exact Post.pure' (not_nan_setLast hs hrs)
  split
  · refine Post.bind' (post_eval_nn hnn) fun re hre => Post.pure' ?_
    split
    · exact not_nan_setLast hs hre
    · exact not_nan_setLast hs hrs
  · refine Post.bind' (post_eval_nn hnn) fun rc hrc => ?_
    split
    · exact Post.pure' (not_nan_setLast hs hrc)
    · refine Post.bind' (post_evalRows_nn hnn) fun v hv => Post.pure' fun i => ?_
      simp only [setTail]
      split
      · exact hs i
      · exact hv _

/-- From a sorted simplex without NaN fitness values, the coefficient of expansion does not matter. -/
theorem same_method {env : Env (Vec D)} (p : Par) (c : Fl) {s : St D N} (hs : ∀ i, s.fit i ≠ .nan)
    (hsort : ∀ i j : Fin N, i < j → leNanLast (s.fit i) (s.fit j)) : Same env (method p s) (method { p with gamma := c } s) := by
  unfold method
  split
  swap
  · exact Same.rfl'
  rename_i h
  refine Same.bind' Post.any fun rs _ => Same.bind' (P := fun b => rs < s.fit ⟨0, h⟩ → b = true) ?_ fun b hb => ?_
  · unfold reflects
    split
    · split
      · rename_i h2
        refine Post.pure' fun hlt => decide_eq_true ?_
        rcases Nat.eq_or_lt_of_le h2 with h3 | h3
        · have : (⟨N - 2, by omega⟩ : Fin N) = ⟨0, h⟩ := Fin.ext (by simp only; omega)
          rw [this]; exact hlt
        · have := hsort ⟨0, h⟩ ⟨N - 2, by omega⟩ (Fin.mk_lt_mk.2 (by omega))
          rcases this with h4 | h4
          · exact absurd h4 (hs _)
          · exact Fl.lt_of_lt_of_le hlt h4
      · intro w w' a ha; cases ha
    · rename_i hle
      exact Post.pure' fun hlt => absurd (Fl.le_of_lt hlt) hle
  · by_cases hb' : b = true
    · rw [if_pos hb', if_pos hb']; exact Same.rfl'
    · rw [if_neg hb', if_neg hb', if_neg fun h => hb' (hb h), if_neg fun h => hb' (hb h)]
      exact Same.rfl'

/-- C65 is false of the code: the expansion step is never made (the condition on line 145 of nmm.py already accepts a reflected point
better than all others), so that the coefficient `gamma` has no effect on any run: same result, same evaluations, same callback
events, provided that the objective does not return NaN. -/
theorem C65_expansion_false (B : Box D) (N : ℕ) (p : Par) (c : Fl) (env : Env (Vec D)) (hnn : NoNaN env) (main : Bool) (ncb fuel : ℕ) :
    (alg B N { p with gamma := c }).exec env main ncb fuel = (alg B N p).exec env main ncb fuel := by
  refine Alg.exec_congr (A := alg B N p) (iter' := iter { p with gamma := c }) (Inv := fun s : St D N => ∀ i, s.fit i ≠ .nan)
    (post_init_nn hnn B N) (fun s xb fxb hs => ?_) (fun s xb fxb hs => ?_) main ncb fuel
  · change Post env (iter p s xb fxb) _
    unfold iter
    refine Post.bind' Post.any fun si _ => Post.bind' (post_method_nn hnn p fun i => hs _) fun s1 h1 => Post.bind' Post.any fun b _ => Post.pure' h1
  · change Same env (iter p s xb fxb) (iter _ s xb fxb)
    unfold iter
    refine Same.bind' (Post.yields Yields.sortIdx) fun si hsi => Same.bindl (same_method p c (fun i => hs _) hsi.2)

/-! ### C66: a single point -/

omit [Arith] in
/-- If the same point is evaluated twice in a row, the second value is the first one or infinity. -/
theorem eval_twice {env : Env (Vec D)} (hdet : ∀ k k' x, env.obj k x = env.obj k' x) {x : Vec D} {w w1 w2 : World (Vec D)} {v1 v2 : Fl}
    (h1 : (Prog.eval x).run env w = (.ok v1, w1)) (h2 : (Prog.eval x).run env w1 = (.ok v2, w2)) : v2 = v1 ∨ v2 = .pinf := by
  rw [Prog.run_eval] at h1 h2
  rcases evalTask_cases env.toTaskCfg w1.st x with ⟨-, e2⟩ | ⟨-, e, -, e2⟩ | ⟨hs2, r2, hr2, e2⟩
  · rw [e2] at h2; cases h2; exact Or.inr rfl
  · rw [e2] at h2; cases h2
  · rw [e2] at h2; cases h2
    rcases evalTask_cases env.toTaskCfg w.st x with ⟨hs1, e1⟩ | ⟨-, e, -, e1⟩ | ⟨-, r1, hr1, e1⟩
    · rw [e1] at h1; cases h1
      rw [hs1] at hs2; cases hs2
    · rw [e1] at h1; cases h1
    · rw [e1] at h1; cases h1
      rw [hdet _ w.st.evals, hr1] at hr2
      cases hr2
      exact Or.inl rfl

omit [Arith] in
/-- With a single point, its centroid with itself left out is not a number. -/
theorem away_single (fn : Fn → Fl → Fl) (pop : Fin 1 → Vec D) (c : Fl) (x : Vec D) :
    @away (exactArith fn) D c (@centroid (exactArith fn) D 1 pop) x = fun _ => .nan := by
  letI := exactArith fn
  funext j
  change Fl.addX (centroid pop j) (c * (centroid pop j - x j)) = .nan
  have : centroid pop j = .nan := rfl
  rw [this]
  rfl

omit [Arith] in
/-- C66 is false of the code: with a single point (one dimension, where `population_size` defaults to the dimension) every iteration
raises an exception, for every deterministic objective: no execution gets beyond the initial population. -/
theorem C66_single_false (fn : Fn → Fl → Fl) (B : Box D) (p : Par) (env : Env (Vec D)) (hdet : ∀ k k' x, env.obj k x = env.obj k' x)
    (ncb : ℕ) (hist : List (St D 1 × Vec D × Fl)) (w : World (Vec D)) (ht : (@alg (exactArith fn) D B 1 p).Trace env ncb hist w) :
    hist.length ≤ 1 := by
  letI := exactArith fn
  have hm : ∀ (s : St D 1) w w' a, (method p s).run env w ≠ (.ok a, w') := by
    intro s w w' a ha
    simp only [method, away_single, Prog.bind_def] at ha
    rw [dif_pos (by decide), Prog.run_bind] at ha
    rcases h1 : (Prog.eval fun _ : Fin D => Fl.nan).run env w with ⟨e | v1, w1⟩
    · rw [h1] at ha; cases ha
    rw [h1] at ha
    simp only [reflects] at ha
    by_cases hle : v1 ≤ s.fit ⟨0, by decide⟩
    · rw [if_pos hle, dif_neg (by decide)] at ha
      cases ha
    rw [if_neg hle] at ha
    simp only [Prog.pure_def, Prog.pure_bind'] at ha
    rw [if_neg (by simp), if_neg fun h => hle (Fl.le_of_lt h)] at ha
    simp only [contract, away_single, Prog.bind_def] at ha
    rw [Prog.run_bind] at ha
    rcases h2 : (Prog.eval fun _ : Fin D => Fl.nan).run env w1 with ⟨e | v2, w2⟩
    · rw [h2] at ha; cases ha
    rw [h2] at ha
    simp only at ha
    rw [if_neg] at ha
    · cases ha
    · intro hlt
      rcases eval_twice hdet h1 h2 with rfl | rfl
      · exact hle (Fl.le_of_lt hlt)
      · exact absurd hlt (by simp)
  cases hist with
  | nil => simp
  | cons r rest =>
    have h0 : rest.length = 0 := ht.after (P := fun n _ => n = 0) (fun _ _ _ _ => rfl) (fun n s xb fxb _ => ?_) (pre := []) rfl
    · rw [List.length_cons, h0]
    · change Post env (iter p s xb fxb) _
      unfold iter
      exact Post.bind' Post.any fun si _ => Post.bind' (P := fun _ => False) (fun w w' a h => hm _ w w' a h) fun _ h => h.elim

/-! ### C67 -/

/-- The points 2 and -2 on the box `[-2, 2]`, one iteration, clipping as repair function. -/
def Ex.env : Env (Vec 1) :=
  NiaPy.Ex.env NiaPy.Ex.sphere .minimization none (some 1) none { NiaPy.Ex.draws with unif := fun k => if k = 0 then 2 else -2 }
    fun _ _ x i => NiaPy.Ex.clip1 (x i)

/-- The default parameters (nmm.py:60). -/
def Ex.par : Par := ⟨lit 1 10, lit 3 10, .fin (-1 / 5), .fin (-1 / 5)⟩

omit [Arith] in
/-- C67 is false of the code: the Nelder-Mead method evaluates points outside of the bounds. With the default parameters and the points 2
and -2 on the box `[-2, 2]` the first point evaluated in the first iteration is 2.4. -/
theorem C67_bounds_false : ∃ c ∈ ((@alg NiaPy.Ex.arith 1 (NiaPy.Ex.box 1) 2 Ex.par).exec Ex.env true 0 3).2.calls, ¬ (NiaPy.Ex.box 1).NotOut c.1 := by
  have h : (((@alg NiaPy.Ex.arith 1 (NiaPy.Ex.box 1) 2 Ex.par).exec Ex.env true 0 3).2.calls.any fun c => decide (.fin 2 < c.1 0)) = true := by
    decide +kernel
  obtain ⟨c, hc, h⟩ := List.any_eq_true.1 h
  exact ⟨c, hc, fun hn => (hn 0).2 (of_decide_eq_true h)⟩

/-- An execution of three iterations. -/
example : ∃ hist w, letI := NiaPy.Ex.arith; Alg.Trace (alg (NiaPy.Ex.box 2) 3 Ex.par) (NiaPy.Ex.env2 3) 2 hist w ∧ hist.length = 4 :=
  letI := NiaPy.Ex.arith
  (verified (NiaPy.Ex.box 2) 3 Ex.par).exists_trace (NiaPy.Ex.env2 3) (P := fun _ => True) (sh := True) (fun _ _ _ h _ _ x => by rw [h]; trivial) (fuel := 5) (by decide +kernel)

/-- The hypotheses of C65 hold of it. -/
example : NoNaN (NiaPy.Ex.env2 (D := 2) 3) := NiaPy.Ex.env2_noNaN _ _

/-- With a single point the run raises; the hypothesis of C66 holds. -/
example : (match ((@alg NiaPy.Ex.arith 1 (NiaPy.Ex.box 1) (size 1 none) Ex.par).exec NiaPy.Ex.env2 true 0 5).1 with
    | .error _ => true | _ => false) = true := by decide +kernel
example : ∀ k k' x, (NiaPy.Ex.env2 (D := 1)).obj k x = (NiaPy.Ex.env2 (D := 1)).obj k' x := fun _ _ _ => rfl

end NiaPy.NM
