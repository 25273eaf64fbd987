import Verif.Steps

/-!
# What a program returns in a given environment

Unlike `Prog.wp`, which knows of a repair function only that its results are allowed, these rules know the environment.
-/

namespace NiaPy
variable {X α β : Type} {env : Env X}

theorem le_of_unifErr {lo hi : Fl} (h : unifErr lo hi = none) : lo ≤ hi := by
  unfold unifErr at h
  split at h
  · split at h
    · exact (Fl.fin_le_fin _ _).2 ‹_›
    · cases h
  · cases h

/-- Everything `p` returns satisfies `P`. -/
def Post (env : Env X) (p : Prog X α) (P : α → Prop) : Prop := ∀ w w' a, p.run env w = (.ok a, w') → P a

namespace Post

theorem pure' {a : α} {P : α → Prop} (h : P a) : Post env (Pure.pure a) P := by
  intro w w' b hb
  cases hb
  exact h

theorem mono {p : Prog X α} {P P' : α → Prop} (h : Post env p P) (hP : ∀ a, P a → P' a) : Post env p P' :=
  fun w w' a ha => hP a (h w w' a ha)

theorem bind {p : Prog X α} {f : α → Prog X β} {P : α → Prop} {R : β → Prop} (hp : Post env p P) (hf : ∀ a, P a → Post env (f a) R) :
    Post env (p.bind f) R := by
  intro w w' b hb
  rw [Prog.run_bind] at hb
  cases hr : p.run env w with
  | mk r w1 =>
    rw [hr] at hb
    cases r with
    | error e => cases hb
    | ok a => exact hf a (hp w w1 a hr) w1 w' b hb

theorem bind' {p : Prog X α} {f : α → Prog X β} {P : α → Prop} {R : β → Prop} (hp : Post env p P) (hf : ∀ a, P a → Post env (f a) R) :
    Post env (p >>= f) R := bind hp hf

/-- What holds in every environment. -/
theorem yields {p : Prog X α} {P : α → Prop} (h : Yields Ctx.any p P) : Post env p P := fun _ _ _ hr => h.run hr

theorem any {p : Prog X α} : Post env p fun _ => True := fun _ _ _ _ => trivial

/-- A repair function whose results satisfy `P`. -/
theorem repair {x : X} {s : Bool} {P : X → Prop} (h : ∀ rng k, P (env.repairFn rng k x)) : Post env (Prog.repair x s) P := by
  intro w w' a ha
  cases s <;> cases ha <;> exact h _ _

/-- An evaluation returns `+inf` or a value of the objective. -/
theorem eval {x : X} {P : Fl → Prop} (h : ∀ v, Possible env x v → P v) : Post env (Prog.eval x) P := by
  intro w w' a ha
  rw [Prog.run_eval] at ha
  rcases evalTask_cases env.toTaskCfg w.st x with ⟨-, h1⟩ | ⟨-, e, -, h1⟩ | ⟨-, r, hr, h1⟩
  · rw [h1] at ha; cases ha; exact h _ (Or.inl rfl)
  · rw [h1] at ha; cases ha
  · rw [h1] at ha; cases ha; exact h _ (Or.inr ⟨_, _, hr, rfl⟩)

theorem rand {P : Fl → Prop} (h : ∀ r, .fin 0 ≤ r → r < .fin 1 → P r) : Post env (Prog.rand : Prog X Fl) P := by
  intro w w' v hv
  cases hv
  exact h _ (env.rng.rand_mem _).1 (env.rng.rand_mem _).2

/-- A uniform draw that does not raise is within its bounds. -/
theorem unif {lo hi : Fl} {P : Fl → Prop} (h : ∀ r, lo ≤ r → r ≤ hi → P r) : Post env (Prog.unif lo hi : Prog X Fl) P := by
  intro w w' v hv
  simp only [Prog.unif, Prog.lift, Prog.run, stepOp] at hv
  cases he : unifErr lo hi with
  | some e => rw [he] at hv; cases hv
  | none =>
    rw [he] at hv; cases hv
    have := env.rng.unif_mem w.rk 0 lo hi (le_of_unifErr he)
    exact h _ this.1 this.2

theorem dist {d : Dist} {a b : Fl} {P : Fl → Prop} (h : ∀ k, P (env.rng.dist k d a b)) : Post env (Prog.dist d a b : Prog X Fl) P := by
  intro w w' v hv
  simp only [Prog.dist, Prog.lift, Prog.run, stepOp] at hv
  cases he : distErr d b with
  | some e => rw [he] at hv; cases hv
  | none => rw [he] at hv; cases hv; exact h _

theorem tabM {n : ℕ} {f : Fin n → Prog X α} {P : Fin n → α → Prop} (h : ∀ i, Post env (f i) (P i)) :
    Post env (NiaPy.tabM n f) fun r => ∀ i, P i (r i) := by
  induction n with
  | zero => exact pure' fun i => i.elim0
  | succ n ih =>
    refine bind (h 0) fun a ha => bind (ih fun i => h i.succ) fun r hr => pure' fun i => ?_
    refine Fin.cases ?_ (fun i => ?_) i
    · exact ha
    · exact hr i

theorem ofExcept {r : Except PyErr α} {P : α → Prop} (h : ∀ a, r = .ok a → P a) : Post env (Prog.ofExcept r) P := by
  intro w w' a ha
  cases r with
  | error e => cases ha
  | ok b => cases ha; exact h a rfl

/-- Looking at the task shows its limits. -/
theorem look : Post env Prog.look fun v => v.maxIters = env.maxIters ∧ v.maxEvals = env.maxEvals := by
  intro w w' a ha
  rw [Prog.run_look] at ha
  cases ha
  exact ⟨rfl, rfl⟩

end Post

/-- An invariant of the states at the head of the loop and a relation between consecutive ones, in a given environment. -/
theorem Alg.Trace.post {A : Alg X} {env : Env X} {ncb : ℕ} {hist : List (A.σ × X × Fl)} {w : World X} (ht : A.Trace env ncb hist w)
    {P : A.σ × X × Fl → Prop} {R : A.σ × X × Fl → A.σ × X × Fl → Prop}
    (h0 : ∀ s : A.σ, ∀ b, (∃ w w', A.init.run env w = (.ok s, w')) → getBest (A.pop s) (A.fit s) none .pinf = .ok b → P (s, b.1, b.2))
    (h : ∀ r, P r → Post env (A.iter r.1 r.2.1 r.2.2) fun r' => P r' ∧ R r' r) :
    (∀ r ∈ hist, P r) ∧ hist.IsChain R := by
  induction ht with
  | @start r w hs =>
    refine ⟨fun r' hr' => ?_, .singleton _⟩
    cases List.mem_singleton.1 hr'
    obtain ⟨w1, h1, -, -, h2, -⟩ := start_init hs
    exact h0 r.1 r.2 ⟨w1, w, h1⟩ h2
  | round _ _ hr ih =>
    obtain ⟨w1, w2, h1, -⟩ := round_iter hr
    have := h _ (ih.1 _ (by simp)) _ _ _ h1
    refine ⟨fun r' hr' => ?_, .cons_cons this.2 ih.2⟩
    rcases List.mem_cons.1 hr' with rfl | hr'
    · exact this.1
    · exact ih.1 _ hr'

/-- What holds of the first state and is kept by every iteration holds of all of them. -/
theorem Alg.Trace.keep {A : Alg X} {env : Env X} {ncb : ℕ} {hist : List (A.σ × X × Fl)} {w : World X} (ht : A.Trace env ncb hist w)
    {P : A.σ → Prop} (h0 : ∀ r ∈ hist.getLast?, P r.1) (h : ∀ r : A.σ × X × Fl, P r.1 → Post env (A.iter r.1 r.2.1 r.2.2) fun r' => P r'.1) :
    ∀ r ∈ hist, P r.1 := by
  induction ht with
  | @start r w hs =>
    intro r' hr'
    cases List.mem_singleton.1 hr'
    exact h0 _ rfl
  | round _ _ hr ih =>
    obtain ⟨w1, w2, h1, -⟩ := round_iter hr
    rw [List.getLast?_cons_cons] at h0
    intro r' hr'
    rcases List.mem_cons.1 hr' with rfl | hr'
    · exact h _ (ih h0 _ (by simp)) _ _ _ h1
    · exact ih h0 _ hr'

/-- What holds of the state after `n` iterations, by induction on `n`. -/
theorem Alg.Trace.after {A : Alg X} {env : Env X} {ncb : ℕ} {hist : List (A.σ × X × Fl)} {w : World X} (ht : A.Trace env ncb hist w)
    {P : ℕ → A.σ → Prop} (h0 : Post env A.init (P 0)) (h : ∀ n s xb fxb, P n s → Post env (A.iter s xb fxb) fun r => P (n + 1) r.1)
    {pre : List (A.σ × X × Fl)} {r : A.σ × X × Fl} {rest : List (A.σ × X × Fl)} (he : hist = pre ++ r :: rest) : P rest.length r.1 := by
  induction ht generalizing pre r rest with
  | @start r' w hs =>
    obtain ⟨w1, h1, -⟩ := start_init hs
    have hp := h0 _ _ _ h1
    cases pre with
    | nil => cases he; exact hp
    | cons a pre => simp at he
  | @round r1 r2 hist w w' _ _ hr ih =>
    cases pre with
    | nil =>
      cases he
      obtain ⟨w1, w2, h1, -⟩ := round_iter hr
      exact h _ _ _ _ (ih (pre := []) rfl) _ _ _ h1
    | cons a pre =>
      rw [List.cons_append, List.cons.injEq] at he
      exact ih he.2

end NiaPy
