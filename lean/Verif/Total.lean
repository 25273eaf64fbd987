import Verif.Post
import Verif.PopTools

/-!
# Programs that do not raise

In an environment whose objective function returns a number for every solution (`Env.Calm`), the program raises no exception, and
what it returns satisfies a condition. A program may exceed the model's bound on the rounds of a rejection loop (`outOfFuel`, not a
Python exception); that whole runs do not is the subject of C17.
-/

namespace NiaPy
variable {X α β σ : Type} {env : Env X}

/-- The objective never raises and never returns NaN. -/
def Env.Calm (env : Env X) : Prop := ∀ k x, ∃ r, env.obj k x = .ok r ∧ r ≠ .nan

/-- The callbacks never raise. -/
def Env.Polite (env : Env X) : Prop := ∀ i k e, env.callback i k e = .ok ()

theorem Env.Calm.noNaN (h : env.Calm) : NoNaN env := fun k x r hr => by
  obtain ⟨r', h1, h2⟩ := h k x
  rw [h1] at hr
  cases hr
  exact h2

/-- The bounds are finite and in order. -/
def Box.Proper {D : ℕ} (B : Box D) : Prop := ∀ i, unifErr (B.lo i) (B.hi i) = none

/-- `p` raises no exception, in any state of the world, and what it returns satisfies `P`. -/
structure Total (env : Env X) (p : Prog X α) (P : α → Prop) : Prop where
  out : ∀ w, (∃ a w', p.run env w = (.ok a, w') ∧ P a) ∨ ∃ w', p.run env w = (.error .outOfFuel, w')

/-- `p` raises no exception. -/
abbrev Ends (env : Env X) (p : Prog X α) : Prop := Total env p fun _ => True

namespace Total

theorem mono {p : Prog X α} {P P' : α → Prop} (h : Total env p P) (hP : ∀ a, P a → P' a) : Total env p P' := ⟨fun w => by
  obtain ⟨a, w', h1, h2⟩ | h1 := h.out w
  · exact Or.inl ⟨a, w', h1, hP a h2⟩
  · exact Or.inr h1⟩

theorem ends {p : Prog X α} {P : α → Prop} (h : Total env p P) : Ends env p := h.mono fun _ _ => trivial

theorem and {p : Prog X α} {P P' : α → Prop} (h : Total env p P) (h' : Post env p P') : Total env p fun a => P a ∧ P' a := ⟨fun w => by
  obtain ⟨a, w', h1, h2⟩ | h1 := h.out w
  · exact Or.inl ⟨a, w', h1, h2, h' w w' a h1⟩
  · exact Or.inr h1⟩

theorem with' {p : Prog X α} {P : α → Prop} (h : Ends env p) (h' : Post env p P) : Total env p P := (h.and h').mono fun _ h => h.2

theorem pure {a : α} {P : α → Prop} (h : P a) : Total env (.pure a) P := ⟨fun w => Or.inl ⟨a, w, rfl, h⟩⟩
theorem pure' {a : α} {P : α → Prop} (h : P a) : Total env (Pure.pure a) P := ⟨fun w => Or.inl ⟨a, w, rfl, h⟩⟩

theorem bind {p : Prog X α} {f : α → Prog X β} {P : α → Prop} {R : β → Prop} (hp : Total env p P)
    (hf : ∀ a, P a → Total env (f a) R) : Total env (p.bind f) R := ⟨fun w => by
  obtain ⟨a, w1, h1, h2⟩ | ⟨w1, h1⟩ := hp.out w
  · obtain ⟨b, w2, h3, h4⟩ | ⟨w2, h3⟩ := (hf a h2).out w1
    · exact Or.inl ⟨b, w2, by rw [Prog.run_bind, h1]; exact h3, h4⟩
    · exact Or.inr ⟨w2, by rw [Prog.run_bind, h1]; exact h3⟩
  · exact Or.inr ⟨w1, by rw [Prog.run_bind, h1]⟩⟩

theorem ok {p : Prog X α} {P : α → Prop} (h : ∀ w, ∃ a w', p.run env w = (.ok a, w') ∧ P a) : Total env p P := ⟨fun w => Or.inl (h w)⟩
theorem fuel {P : α → Prop} : Total env (Prog.throw .outOfFuel) P := ⟨fun w => Or.inr ⟨w, rfl⟩⟩

theorem bind' {p : Prog X α} {f : α → Prog X β} {P : α → Prop} {R : β → Prop} (hp : Total env p P)
    (hf : ∀ a, P a → Total env (f a) R) : Total env (p >>= f) R := hp.bind hf

/-- Sequence, forgetting what the first part returned. -/
theorem bindT {p : Prog X α} {f : α → Prog X β} {R : β → Prop} (hp : Ends env p)
    (hf : ∀ a, Total env (f a) R) : Total env (p >>= f) R := hp.bind' fun a _ => hf a

theorem ite {c : Prop} [Decidable c] {p q : Prog X α} {P : α → Prop} (hp : c → Total env p P) (hq : ¬ c → Total env q P) :
    Total env (if c then p else q) P := by
  split
  · exact hp ‹_›
  · exact hq ‹_›

theorem ofExcept {r : Except PyErr α} {P : α → Prop} (h : ∃ a, r = .ok a ∧ P a) : Total env (Prog.ofExcept r) P := by
  obtain ⟨a, rfl, h⟩ := h
  exact ok (fun w => ⟨a, w, rfl, h⟩)

theorem eval (hE : env.Calm) {x : X} : Total env (Prog.eval x) fun v => v ≠ .nan := ok (fun w => by
  rw [Prog.run_eval]
  rcases evalTask_cases env.toTaskCfg w.st x with ⟨-, h1⟩ | ⟨-, e, h2, h1⟩ | ⟨-, r, hr, h1⟩
  · rw [h1]; exact ⟨_, _, rfl, nofun⟩
  · obtain ⟨r, hr, -⟩ := hE w.st.evals x
    rw [hr] at h2
    cases h2
  · rw [h1]
    refine ⟨_, _, rfl, ?_⟩
    have := hE.noNaN _ _ _ hr
    cases env.opt <;> cases r <;> simp_all [OptType.mul])

theorem rand : Total env (Prog.rand : Prog X Fl) fun r => Fl.fin 0 ≤ r ∧ r < Fl.fin 1 :=
  ok (fun _ => ⟨_, _, rfl, env.rng.rand_mem _⟩)
/-- `uniform(lo, hi)`: the bounds must be finite and in order. -/
theorem unif {lo hi : Fl} (h : unifErr lo hi = none) : Total env (Prog.unif lo hi : Prog X Fl) fun r => lo ≤ r ∧ r ≤ hi :=
  ok (fun w => by
    simp only [Prog.unif, Prog.lift, Prog.run, stepOp, h]
    exact ⟨_, _, rfl, env.rng.unif_mem _ _ _ _ (le_of_unifErr h)⟩)
theorem dist {d : Dist} {a b : Fl} (h : distErr d b = none) : Ends env (Prog.dist d a b : Prog X Fl) :=
  ok (fun w => by
    simp only [Prog.dist, Prog.lift, Prog.run, stepOp, h]
    exact ⟨_, _, rfl, trivial⟩)
/-- `normal(a, b)`: the scale must not be negative. -/
theorem norm {a b : Fl} (h : ¬ b < .fin 0) : Ends env (Prog.norm a b : Prog X Fl) := dist (by simp [distErr, h])
theorem norm1 {a : Fl} : Ends env (Prog.norm a 1 : Prog X Fl) := norm (by decide)
theorem int {n : ℕ} (hn : 0 < n) : Total env (Prog.int n : Prog X ℕ) fun k => k < n := ok (fun w =>
  ⟨_, _, run_int env w n hn, env.rng.int_lt _ _ hn⟩)
theorem intFin {n : ℕ} (hn : 0 < n) : Ends env (NiaPy.intFin n : Prog X (Fin n)) :=
  (int hn).bind fun k hk => by rw [dif_pos hk]; exact pure trivial
theorem perm {n : ℕ} : Total env (Prog.perm n : Prog X (List ℕ)) fun l => l.Perm (List.range n) :=
  ok (fun _ => ⟨_, _, rfl, env.rng.perm_perm _ _⟩)
theorem argsort {fs : List Fl} : Total env (Prog.argsort fs : Prog X (List ℕ)) fun l => l.Perm (List.range fs.length) ∧
    l.Pairwise fun i j => leNanLast (fs.getD i .nan) (fs.getD j .nan) :=
  ok (fun _ => ⟨_, _, rfl, env.rng.argsort_perm _ _, env.rng.argsort_sorted _ _⟩)
theorem look : Total env (Prog.look : Prog X TaskView) fun v => v.maxIters = env.maxIters ∧ v.maxEvals = env.maxEvals :=
  ok (fun w => ⟨_, _, Prog.run_look env w, rfl, rfl⟩)
theorem repair {x : X} {s : Bool} : Ends env (Prog.repair x s : Prog X X) := ok (fun w => by
  cases s <;> exact ⟨_, _, rfl, trivial⟩)

theorem tabM {n : ℕ} {f : Fin n → Prog X α} {P : Fin n → α → Prop} (h : ∀ i, Total env (f i) (P i)) :
    Total env (NiaPy.tabM n f) fun r => ∀ i, P i (r i) := by
  induction n with
  | zero => exact pure fun i => i.elim0
  | succ n ih =>
    refine bind (h 0) fun a ha => bind (ih fun i => h i.succ) fun r hr => pure fun i => ?_
    refine Fin.cases ?_ (fun i => ?_) i
    · exact ha
    · exact hr i

theorem tabMT {n : ℕ} {f : Fin n → Prog X α} (h : ∀ i, Ends env (f i)) : Ends env (NiaPy.tabM n f) := (tabM h).ends

theorem forFin {n : ℕ} {f : Fin n → σ → Prog X σ} {s : σ} (J : σ → Prop) (h0 : J s)
    (hstep : ∀ i s, J s → Total env (f i s) J) : Total env (NiaPy.forFin n f s) J := by
  induction n generalizing s with
  | zero => exact pure h0
  | succ n ih => exact bind (hstep 0 s h0) fun s hs => ih hs fun i s => hstep i.succ s

theorem forList {γ : Type} {l : List γ} {f : γ → σ → Prog X σ} {s : σ} (J : σ → Prop) (h0 : J s)
    (hstep : ∀ i ∈ l, ∀ s, J s → Total env (f i s) J) : Total env (NiaPy.forList l f s) J := by
  induction l generalizing s with
  | nil => exact pure h0
  | cons b l ih => exact bind (hstep b (by simp) s h0) fun s hs => ih hs fun i hi s => hstep i (by simp [hi]) s

theorem mapM' {γ : Type} {l : List γ} {f : γ → Prog X α} {P : γ → α → Prop} (h : ∀ b ∈ l, Total env (f b) (P b)) :
    Total env (NiaPy.mapM' l f) fun r => List.Forall₂ P l r := by
  induction l with
  | nil => exact pure .nil
  | cons b l ih =>
    exact bind (h b (by simp)) fun a ha => bind (ih fun b hb => h b (by simp [hb])) fun r hr => pure (.cons ha hr)

theorem mapMAll {γ : Type} {l : List γ} {f : γ → Prog X α} {P : α → Prop} (h : ∀ b ∈ l, Total env (f b) P) :
    Total env (NiaPy.mapM' l f) fun r => (∀ x ∈ r, P x) ∧ r.length = l.length :=
  (mapM' (P := fun _ => P) h).mono fun r hr => ⟨fun x hx => by
    clear h
    induction hr with
    | nil => simp at hx
    | cons h _ ih =>
      rcases List.mem_cons.1 hx with rfl | hx
      · exact h
      · exact ih hx, hr.length_eq.symm⟩

theorem mapMT {γ : Type} {l : List γ} {f : γ → Prog X α} (h : ∀ b, Ends env (f b)) : Ends env (NiaPy.mapM' l f) :=
  (mapM' fun b _ => h b).ends

theorem randVec {D : ℕ} : Total env (NiaPy.randVec D : Prog X (Vec D)) fun r => ∀ i, Fl.fin 0 ≤ r i ∧ r i < Fl.fin 1 := tabM fun _ => rand
theorem normVec {D : ℕ} {a b : Fl} (h : ¬ b < .fin 0) : Ends env (NiaPy.normVec D a b : Prog X (Vec D)) := tabMT fun _ => norm h
theorem normVec1 {D : ℕ} {a : Fl} : Ends env (NiaPy.normVec D a 1 : Prog X (Vec D)) := tabMT fun _ => norm1
theorem unifVec {D : ℕ} {lo hi : Vec D} (h : ∀ i, unifErr (lo i) (hi i) = none) : Total env (NiaPy.unifVec lo hi : Prog X (Vec D))
    fun r => ∀ i, lo i ≤ r i ∧ r i ≤ hi i := tabM fun i => unif (h i)

theorem scaleIdx {n : ℕ} (hn : 0 < n) : Ends env (NiaPy.scaleIdx n : Prog X (Fin n)) := by
  unfold NiaPy.scaleIdx
  refine rand.bind' fun r hr => ?_
  rw [dif_pos]
  · exact pure' trivial
  · cases r with
    | fin q =>
      obtain ⟨h0, h1⟩ := hr
      rw [Fl.fin_le_fin] at h0
      rw [Fl.fin_lt_fin] at h1
      have hq : 0 ≤ q * n := mul_nonneg h0 (by positivity)
      have hl : q * n < n := by
        have : (0 : ℚ) < n := by exact_mod_cast hn
        nlinarith
      simp only [scaleNat]
      have h2 : ⌊q * n⌋ < (n : ℤ) := Int.floor_lt.2 (by exact_mod_cast hl)
      have h3 : 0 ≤ ⌊q * n⌋ := Int.floor_nonneg.2 hq
      omega
    | _ => simpa [scaleNat] using hn

theorem sortIdx {n : ℕ} {fs : Fin n → Fl} : Total env (NiaPy.sortIdx fs : Prog X (Fin n → Fin n)) fun s =>
    Function.Bijective s ∧ ∀ i j, i < j → leNanLast (fs (s i)) (fs (s j)) :=
  with' (bindT argsort.ends fun _ => pure' trivial) (.yields Yields.sortIdx)

theorem permIdx {n : ℕ} : Total env (NiaPy.permIdx n : Prog X (Fin n → Fin n)) Function.Bijective :=
  with' (bindT perm.ends fun _ => pure' trivial) (.yields Yields.permIdx)

theorem choiceFin {n k : ℕ} (h : k ≤ n) : Total env (NiaPy.choiceFin n k : Prog X (Fin k → Fin n)) Function.Injective := by
  refine with' ?_ (.yields Yields.choiceFin)
  unfold NiaPy.choiceFin
  rw [dif_pos h]
  exact bindT permIdx.ends fun _ => pure' trivial

theorem choiceRep {n k : ℕ} (hn : 0 < n) : Ends env (NiaPy.choiceRep n k : Prog X (Fin k → Fin n)) := tabMT fun _ => intFin hn

/-- Lévy flights: the constant `sigma`, about 0.7, must not be negative. -/
theorem levyVec [Arith] (h : ¬ (levySigma : Fl) < .fin 0) {D : ℕ} {a : Fl} : Ends env (NiaPy.levyVec D a : Prog X (Vec D)) :=
  bindT (normVec h) fun _ => bindT normVec1 fun _ => pure' trivial

theorem sortRecs {val : α → Fl} {l : List α} : Total env (NiaPy.sortRecs val l : Prog X (List α)) fun r =>
    r.Perm l ∧ r.Pairwise fun a b => leNanLast (val a) (val b) :=
  with' (bindT argsort.ends fun _ => pure' trivial) (.yields Yields.sortRecs)

theorem evalRows (hE : env.Calm) {n : ℕ} (hn : 0 < n) {pop : Fin n → X} : Total env (NiaPy.evalRows pop) fun r => ∀ i, r i ≠ .nan := by
  unfold NiaPy.evalRows
  rw [if_neg (by omega)]
  exact tabM fun _ => eval hE

theorem moveEval (hE : env.Calm) {n : ℕ} {m : Fin n → Prog X X} (hm : ∀ i, Ends env (m i)) :
    Total env (NiaPy.moveEval m) fun r => ∀ i, (r i).2 ≠ .nan :=
  tabM (P := fun _ (r : X × Fl) => r.2 ≠ .nan) fun i => bindT (hm i) fun _ => bind' (eval hE) fun _ hv => pure' hv

theorem evalRecs (hE : env.Calm) {l : List X} (hl : l ≠ []) : Total env (NiaPy.evalRecs l) fun r => (∀ e ∈ r, e.2 ≠ .nan) ∧ r.length = l.length := by
  unfold NiaPy.evalRecs
  rw [if_neg (by simpa using hl)]
  exact mapMAll fun _ _ => bind' (eval hE) fun _ hv => pure' hv

theorem argmin_ok {l : List Fl} (hl : l ≠ []) : ∃ i, argmin l = .ok i ∧ i < l.length := by
  cases l with
  | nil => exact absurd rfl hl
  | cons v vs =>
    refine ⟨_, rfl, ?_⟩
    have : ∀ (vs : List Fl) cur ci i, ci < i → argminGo cur ci i vs < i + vs.length := by
      intro vs
      induction vs with
      | nil => intro cur ci i h; simpa [argminGo] using h
      | cons v vs ih =>
        intro cur ci i h
        simp only [argminGo]
        split
        · simp; omega
        · split
          · have := ih v i (i + 1) (by omega); simp; omega
          · have := ih cur ci (i + 1) (by omega); simp; omega
    have := this vs v 0 1 (by omega)
    simp; omega

theorem argminRec {val : α → Fl} {l : List α} (hl : l ≠ []) : Total env (NiaPy.argminRec val l : Prog X α) fun a =>
    a ∈ l ∧ ((∀ e ∈ l, val e ≠ .nan) → ∀ e ∈ l, val a ≤ val e) := by
  refine with' ?_ (.yields ⟨fun g => wp_argminRec fun a h1 h2 => ⟨⟨h1, h2⟩, rfl⟩⟩)
  unfold NiaPy.argminRec
  obtain ⟨i, h1, h2⟩ := argmin_ok (l := l.map val) (by simpa using hl)
  rw [h1]
  simp only [List.length_map] at h2
  simp only [List.getElem?_eq_getElem h2]
  exact ofExcept ⟨_, rfl, trivial⟩

theorem argminIdx {n : ℕ} (hn : 0 < n) {fit : Fin n → Fl} : Ends env (NiaPy.argminIdx fit : Prog X (Fin n)) :=
  (argminRec (by rw [Ne, List.finRange_eq_nil_iff]; omega)).ends

theorem argmaxIdx {n : ℕ} (hn : 0 < n) {fit : Fin n → Fl} : Ends env (NiaPy.argmaxIdx fit : Prog X (Fin n)) :=
  (argminRec (by rw [Ne, List.finRange_eq_nil_iff]; omega)).ends

theorem repairRows {n : ℕ} {pop : Fin n → X} {s : Bool} : Ends env (NiaPy.repairRows pop s) := tabMT fun _ => repair

/-- `get_best` with an incumbent: the population must not be empty. -/
theorem getBest {pop : List X} {fit : List Fl} (hn : fit ≠ []) (hl : pop.length = fit.length) {xb : X} {fxb : Fl} :
    Ends env (Prog.getBest pop fit xb fxb) := by
  refine ofExcept ?_
  obtain ⟨i, h1, h2⟩ := argmin_ok hn
  unfold NiaPy.getBest
  simp only [h1, List.getElem?_eq_getElem h2, List.getElem?_eq_getElem (hl ▸ h2)]
  split <;> exact ⟨_, rfl, trivial⟩

theorem getBest_arr {n : ℕ} (hn : 0 < n) {pop : Fin n → X} {fit : Fin n → Fl} {xb : X} {fxb : Fl} :
    Ends env (Prog.getBest (List.ofFn pop) (List.ofFn fit) xb fxb) :=
  getBest (by rw [Ne, List.ofFn_eq_nil_iff]; omega) (by simp)

theorem defaultNumpyInit {D N : ℕ} {env : Env (Vec D)} (hE : env.Calm) {B : Box D} (hB : B.Proper) (hN : 0 < N) :
    Total env (NiaPy.defaultNumpyInit B N) fun r => ∀ i, r.2 i ≠ .nan := by
  unfold NiaPy.defaultNumpyInit
  refine bindT (tabMT fun _ => (unifVec hB).ends) fun pop => ?_
  rw [if_neg (by omega)]
  exact bind' (tabM fun _ => eval hE) fun r hr => pure' hr

theorem indivEvaluate {D : ℕ} {env : Env (Vec D)} (hE : env.Calm) {i : Indiv D} : Total env i.evaluate fun r => r.f ≠ .nan :=
  bindT repair fun _ => bind' (eval hE) fun _ hv => pure' hv

theorem defaultIndividualInit {D N : ℕ} {env : Env (Vec D)} (hE : env.Calm) {B : Box D} (hB : B.Proper) {opt : OptType} :
    Total env (NiaPy.defaultIndividualInit opt B N) fun r => ∀ i, (r i).f ≠ .nan :=
  tabM fun _ => bindT (unifVec hB).ends fun _ => indivEvaluate hE

end Total

/-- Further programs that end, to be extended with `macro_rules`. -/
syntax "ends_step" : tactic
macro_rules | `(tactic| ends_step) => `(tactic| fail "no rule")

/-- Proves that a program ends. -/
macro "ends" : tactic => `(tactic| repeat' first
  | exact Total.rand.ends
  | exact (Total.unif (by assumption)).ends
  | exact Total.norm1
  | exact Total.norm (by assumption)
  | exact (Total.int (by omega)).ends
  | exact Total.intFin (by omega)
  | exact Total.scaleIdx (by omega)
  | exact Total.sortIdx.ends
  | exact Total.permIdx.ends
  | exact Total.perm.ends
  | exact Total.argsort.ends
  | exact Total.look.ends
  | exact Total.repair
  | exact Total.repairRows
  | exact Total.randVec.ends
  | exact Total.normVec1
  | exact Total.normVec (by assumption)
  | exact (Total.unifVec (by assumption)).ends
  | exact Total.levyVec (by assumption)
  | exact Total.sortRecs.ends
  | exact (Total.choiceFin (by omega)).ends
  | exact Total.choiceRep (by omega)
  | exact (Total.eval (by assumption)).ends
  | exact (Total.evalRows (by assumption) (by omega)).ends
  | exact Total.argminIdx (by omega)
  | exact Total.argmaxIdx (by omega)
  | exact Total.getBest_arr (by omega)
  | exact Total.pure trivial
  | exact Total.pure' trivial
  | ends_step
  | refine Total.tabMT fun _ => ?_
  | refine Total.mapMT fun _ => ?_
  | refine Total.bindT ?_ fun _ => ?_
  | refine Total.ite (fun _ => ?_) (fun _ => ?_)
  | refine Total.forFin (fun _ => True) trivial fun _ _ _ => ?_
  | refine Total.forList (fun _ => True) trivial fun _ _ _ _ => ?_)

/-! ### Whole runs -/

/-- In `env`, `init_population` returns a population that is not empty, with fitness values that are not NaN, and no iteration
raises. -/
def Alg.Safe (A : Alg X) (env : Env X) : Prop := ∃ Inv : A.σ → Prop,
  Total env A.init (fun s => Inv s ∧ A.fit s ≠ [] ∧ (A.pop s).length = (A.fit s).length ∧ ∀ v ∈ A.fit s, v ≠ .nan) ∧
  ∀ s xb fxb, Inv s → Total env (A.iter s xb fxb) fun r => Inv r.1

/-- What the beginning of a run needs, for arrays. -/
theorem first_arr {n : ℕ} (hn : 0 < n) {pop : Fin n → X} {fit : Fin n → Fl} (h : ∀ i, fit i ≠ .nan) :
    List.ofFn fit ≠ [] ∧ (List.ofFn pop).length = (List.ofFn fit).length ∧ ∀ v ∈ List.ofFn fit, v ≠ .nan := by
  refine ⟨by rw [Ne, List.ofFn_eq_nil_iff]; omega, by simp, fun v hv => ?_⟩
  obtain ⟨i, rfl⟩ := List.mem_ofFn.1 hv
  exact h i

theorem getBest_first {pop : List X} {fit : List Fl} (hn : fit ≠ []) (hl : pop.length = fit.length) (hv : ∀ v ∈ fit, v ≠ .nan) :
    ∃ b, getBest pop fit none .pinf = .ok b := by
  obtain ⟨i, h1, h2⟩ := Total.argmin_ok hn
  unfold getBest
  simp only [h1, List.getElem?_eq_getElem h2, List.getElem?_eq_getElem (hl ▸ h2)]
  rw [if_pos (Fl.le_pinf (hv _ (List.getElem_mem h2)))]
  exact ⟨_, rfl⟩

theorem Total.fireAll (hc : env.Polite) (ncb : ℕ) (e : Event X) : Ends env (NiaPy.fireAll ncb e) :=
  Total.forList (fun _ => True) trivial fun i _ _ _ => .ok fun w => by
    rw [Prog.run_fire, hc]
    exact ⟨_, _, rfl, trivial⟩

/-- `Alg.Safe` with an invariant that also speaks about the best solution so far. -/
def Alg.SafeAt (A : Alg X) (env : Env X) : Prop := ∃ Inv : A.σ → X → Prop,
  Total env A.init (fun s => (∀ x ∈ A.pop s, Inv s x) ∧ A.fit s ≠ [] ∧ (A.pop s).length = (A.fit s).length ∧ ∀ v ∈ A.fit s, v ≠ .nan) ∧
  ∀ s xb fxb, Inv s xb → Total env (A.iter s xb fxb) fun r => Inv r.1 r.2.1

theorem getBest_mem {pop : List X} {fit : List Fl} {b : X × Fl} (h : getBest pop fit none .pinf = .ok b) : b.1 ∈ pop := by
  unfold getBest at h
  repeat' split at h
  all_goals cases h
  · exact List.mem_of_getElem? ‹_›
  · exact absurd ‹none = some _› nofun

/-- No exception leaves the loop of `run`. -/
theorem Alg.SafeAt.body {A : Alg X} (h : A.SafeAt env) (hc : env.Polite) (ncb fuel : ℕ) : Ends env (A.body ncb fuel) := by
  obtain ⟨Inv, h0, hi⟩ := h
  have hloop : ∀ fuel s xb fxb, Inv s xb → Ends env (A.loop ncb fuel s xb fxb) := by
    intro fuel
    induction fuel with
    | zero => exact fun s xb fxb _ => .fuel
    | succ fuel ih =>
      intro s xb fxb hs
      refine .bindT Total.look.ends fun v => .ite (fun _ => .pure' trivial) fun _ => .bindT (.fireAll hc _ _) fun _ => ?_
      exact .bind' (hi s xb fxb hs) fun r hr => .bindT (.fireAll hc _ _) fun _ => .bindT (.ok fun w => ⟨_, _, rfl, trivial⟩) fun _ => ih _ _ _ hr
  refine .bindT (.fireAll hc _ _) fun _ => .bind' h0 fun s ⟨hs, h1, h2, h3⟩ => ?_
  obtain ⟨b, hb⟩ := getBest_first h1 h2 h3
  refine .bind' (.ofExcept (P := fun b => b.1 ∈ A.pop s) ⟨b, hb, getBest_mem hb⟩) fun b hb => .bindT (hloop _ _ _ _ (hs _ hb)) fun _ => .bindT (.fireAll hc _ _) fun _ => .pure' trivial

/-- A safe algorithm returns a solution, unless it is stopped by the model's bound on loop rounds. -/
theorem Alg.SafeAt.exec {A : Alg X} (h : A.SafeAt env) (hc : env.Polite) (main : Bool) (ncb fuel : ℕ)
    (hf : (A.exec env main ncb fuel).1 ≠ .error .outOfFuel) : ∃ res, (A.exec env main ncb fuel).1 = .ok ⟨some res, none⟩ := by
  rw [exec_eq] at hf ⊢
  simp only at hf ⊢
  rcases (h.body hc ncb fuel).out (World.init env.opt) with ⟨r, w', hr, -⟩ | ⟨w', hr⟩
  · have hr : (A.execBody env ncb fuel).1 = .ok r := congrArg Prod.fst hr
    rw [hr]
    exact ⟨_, rfl⟩
  · have hr : (A.execBody env ncb fuel).1 = .error .outOfFuel := congrArg Prod.fst hr
    rw [hr] at hf
    simp at hf

theorem Alg.Safe.at {A : Alg X} (h : A.Safe env) : A.SafeAt env := by
  obtain ⟨Inv, h0, hi⟩ := h
  exact ⟨fun s _ => Inv s, h0.mono fun s h => ⟨fun _ _ => h.1, h.2⟩, fun s xb fxb => hi s xb fxb⟩

theorem Alg.Safe.body {A : Alg X} (h : A.Safe env) (hc : env.Polite) (ncb fuel : ℕ) : Ends env (A.body ncb fuel) := h.at.body hc ncb fuel

theorem Alg.Safe.exec {A : Alg X} (h : A.Safe env) (hc : env.Polite) (main : Bool) (ncb fuel : ℕ)
    (hf : (A.exec env main ncb fuel).1 ≠ .error .outOfFuel) : ∃ res, (A.exec env main ncb fuel).1 = .ok ⟨some res, none⟩ := h.at.exec hc main ncb fuel hf

end NiaPy
