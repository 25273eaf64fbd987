import Verif.Trace

/-!
# Concrete runs

Used by the `example`s: a box, an objective and a generator with which the algorithms can be executed.
-/

namespace NiaPy
variable {X : Type}

/-- Number of iterations of a run that ended normally. -/
def Alg.okIters (A : Alg X) (env : Env X) (ncb fuel : ℕ) : Option ℕ :=
  match A.execBody env ncb fuel with
  | (.ok _, w) => some w.st.iters
  | _ => none

theorem VerifiedIf.exists_trace {H : Ctx X → Prop} {A : Alg X} {Good : X → Prop} {s t : Bool} {K : Cost} {al : Prop} (hA : VerifiedIf H A Good s t K al)
    (env : Env X) {P : X → Prop} {sh : Prop} (hH : MetBy H env False P sh) {ncb fuel n : ℕ} (h : A.okIters env ncb fuel = some n) (hG : ∀ x, Good x → P x := by intros; trivial)
    (hR : ∀ rng k x, P (env.repairFn rng k x) := by intros; trivial) :
    ∃ hist w, A.Trace env ncb hist w ∧ hist.length = n + 1 := by
  unfold Alg.okIters at h
  split at h
  · rename_i r w heq
    obtain ⟨hist, w', ht, -, hf⟩ := body_trace (A := A) (env := env) (ncb := ncb) (fuel := fuel) (r := r) (by rw [heq])
    refine ⟨_, w', ht, ?_⟩
    have hc := hA.trace_count env hH ht hG hR
    have hst := fireAll_st env ncb .afterRun w'
    rw [hf, heq] at hst
    simp only at hst
    cases h
    rw [hc.1, hst]
  · cases h

/-- Individuals and fitness values shown to a callback. -/
def Event.shown : Event X → List (X × Fl)
  | .beforeRun => []
  | .afterRun => []
  | .beforeIteration pop fpop _ _ => pop.zip fpop
  | .afterIteration pop fpop _ _ => pop.zip fpop

theorem EventAligned.shown {F : X → Fl → Prop} {e : Event X} (h : EventAligned F True e) : ∀ p ∈ e.shown, F p.1 p.2 := by
  have key : ∀ {l : List X} {l' : List Fl}, List.Forall₂ F l l' → ∀ p ∈ l.zip l', F p.1 p.2 := by
    intro l l' h
    induction h with
    | nil => simp
    | cons h _ ih => simpa using ⟨h, fun a b hp => ih (a, b) hp⟩
  cases e with
  | beforeRun => simp [Event.shown]
  | afterRun => simp [Event.shown]
  | beforeIteration pop fpop xb fxb => exact key (h.1 trivial)
  | afterIteration pop fpop xb fxb => exact key (h.1 trivial)

/-- An individual shown with a finite fitness although it was never evaluated contradicts C28. -/
theorem not_aligned {opt : OptType} {calls : List (X × Except PyErr Fl)} {events : List (ℕ × Event X)}
    (h : ∃ e ∈ events, ∃ p ∈ e.2.shown, p.2 ≠ .pinf ∧ ∀ c ∈ calls, c.1 ≠ p.1) :
    ¬ ∀ e ∈ events, EventAligned (FitOK opt calls) True e.2 := by
  obtain ⟨e, he, p, hp, hne, hc⟩ := h
  intro hall
  rcases (hall e he).shown p hp with h | ⟨r, hr, -⟩
  · exact hne h
  · exact hc _ hr rfl

/-- Has this call evaluated the solution `p.1` and found the fitness `p.2`? -/
def foundBy [DecidableEq X] (opt : OptType) (c : X × Except PyErr Fl) (p : X × Fl) : Bool :=
  decide (c.1 = p.1) && match c.2 with
    | .ok r => decide (p.2 = opt.mul r)
    | .error _ => false

theorem foundBy_ok [DecidableEq X] {opt : OptType} {p : X × Fl} {r : Fl} (h : p.2 = opt.mul r) : foundBy opt (p.1, .ok r) p = true := by
  simp [foundBy, h]

/-- The same for an individual shown with a fitness it was never found to have. -/
theorem not_aligned' [DecidableEq X] {opt : OptType} {calls : List (X × Except PyErr Fl)} {events : List (ℕ × Event X)}
    (h : ∃ e ∈ events, ∃ p ∈ e.2.shown, p.2 ≠ .pinf ∧ ∀ c ∈ calls, foundBy opt c p = false) :
    ¬ ∀ e ∈ events, EventAligned (FitOK opt calls) True e.2 := by
  obtain ⟨e, he, p, hp, hne, hc⟩ := h
  intro hall
  rcases (hall e he).shown p hp with h | ⟨r, hr, hv⟩
  · exact hne h
  · have := hc _ hr
    rw [foundBy_ok hv] at this; cases this

namespace Ex

/-- Exact arithmetic, with the identity for every elementary function. -/
abbrev arith : Arith := exactArith fun _ x => x

/-- The box `[-2, 2]^D`. -/
def box (D : ℕ) : Box D := ⟨fun _ => .fin (-2), fun _ => .fin 2, fun _ => by simp⟩

/-- The sum of the squares of the coordinates. -/
def sumSq {D : ℕ} (x : Vec D) : Fl := letI := arith; (List.ofFn fun i => x i * x i).foldl (· + ·) 0

/-- The sum of the squares as an objective; 0 instead of NaN. -/
def sphere {D : ℕ} : ℕ → Vec D → Except PyErr Fl := fun _ x => .ok (match sumSq x with | .nan => .fin 0 | v => v)

/-- Some streams of numbers. -/
def draws : Draws where
  rand k := (k * 7 % 11 : ℕ) / 11
  unif k := (k * 5 % 13 : ℕ) / 4 - 3 / 2
  norm k := .fin ((k * 3 % 7 : ℕ) / 4 - 1)
  int k := k * 5 + 3
  rot k := k

/-- Clipping a number to `[-2, 2]`. -/
def clip1 : Fl → Fl
  | .fin q => .fin (max (-2) (min 2 q))
  | .ninf => .fin (-2)
  | .pinf => .fin 2
  | .nan => .nan

/-- Two iterations on the sphere, with clipping as the repair function. -/
def env2 {D : ℕ} (mi : ℕ := 2) (me : Option ℕ := none) : Env (Vec D) :=
  env sphere .minimization me (some mi) none draws fun _ _ x i => clip1 (x i)

theorem env2_noNaN {D : ℕ} (mi : ℕ) (me : Option ℕ) : NoNaN (env2 (D := D) mi me) := by
  intro k x r h
  have h : Except.ok (match sumSq x with | .nan => .fin 0 | v => v) = Except.ok (ε := PyErr) r := h
  cases h
  split
  · simp
  · rename_i h; exact fun he => h he

theorem env2_clean {D : ℕ} (mi : ℕ) (me : Option ℕ) : Clean (env2 (D := D) mi me) := ⟨nofun, nofun⟩

/-- A sphere environment never gives NaN. -/
theorem sphere_noNaN {D : ℕ} {env : Env (Vec D)} (he : env.obj = sphere) : NoNaN env := by
  intro k x r h
  rw [he] at h
  have h : Except.ok (match sumSq x with | .nan => .fin 0 | v => v) = Except.ok (ε := PyErr) r := h
  cases h
  split
  · simp
  · rename_i h; exact fun he => h he

end Ex

/-- What a run returns, and the best value its task has seen. -/
def Alg.fitAndBest (A : Alg X) (env : Env X) (fuel : ℕ) : Option (Fl × Fl) :=
  match A.exec env true 0 fuel with
  | (.ok ⟨some (_, f), _⟩, w) => some (f, w.st.xf)
  | _ => none

/-- A run of `A` in `env` that returns something else than the best value evaluated. -/
def Alg.LosesBest (A : Alg X) (env : Env X) : Prop := ∃ fuel out x f, (A.exec env true 0 fuel).1 = .ok out ∧ out.result = some (x, f) ∧
  f ≠ (A.exec env true 0 fuel).2.st.xf

theorem Alg.LosesBest.of {A : Alg X} {env : Env X} {fuel : ℕ} {f b : Fl} (h : A.fitAndBest env fuel = some (f, b)) (hne : f ≠ b) : A.LosesBest env := by
  unfold Alg.fitAndBest at h
  split at h
  · rename_i x f' e w heq
    cases h
    exact ⟨fuel, _, x, _, congrArg Prod.fst heq, rfl, by rw [heq]; exact hne⟩
  · cases h

/-- What a run returns, and the solutions it evaluated. -/
def Alg.resAndCalls (A : Alg X) (env : Env X) (fuel : ℕ) : Option ((X × Fl) × List X) :=
  match A.exec env true 0 fuel with
  | (.ok ⟨some r, _⟩, w) => some (r, w.calls.map Prod.fst)
  | _ => none

/-- A run of `A` in `env` that returns a solution it has not evaluated. -/
def Alg.ReturnsOther (A : Alg X) (env : Env X) : Prop := ∃ fuel out x f, (A.exec env true 0 fuel).1 = .ok out ∧ out.result = some (x, f) ∧
  ∀ c ∈ (A.exec env true 0 fuel).2.calls, c.1 ≠ x

theorem Alg.ReturnsOther.of {A : Alg X} {env : Env X} {fuel : ℕ} (h : ∃ p ∈ A.resAndCalls env fuel, p.1.1 ∉ p.2) : A.ReturnsOther env := by
  obtain ⟨⟨r, l⟩, h, hr⟩ := h
  unfold Alg.resAndCalls at h
  split at h
  · rename_i r' e w heq
    cases h
    refine ⟨fuel, _, r.1, r.2, congrArg Prod.fst heq, rfl, fun c hc he => hr ?_⟩
    rw [heq] at hc
    exact List.mem_map.2 ⟨c, hc, he⟩
  · cases h

/-- What a run returns, and its calls of the objective. -/
def Alg.resAndFits (A : Alg X) (env : Env X) (fuel : ℕ) : Option ((X × Fl) × List (X × Except PyErr Fl)) :=
  match A.exec env true 0 fuel with
  | (.ok ⟨some r, _⟩, w) => some (r, w.calls)
  | _ => none

/-- A completed run of `A` in `env` that returns a solution with a value that no evaluation of this solution has given. -/
def Alg.ReturnsWrong (A : Alg X) (env : Env X) : Prop := ∃ fuel out x f, (A.exec env true 0 fuel).1 = .ok out ∧ out.result = some (x, f) ∧
  f ≠ env.opt.mul .pinf ∧ (x, .ok f) ∉ (A.exec env true 0 fuel).2.calls

theorem Alg.ReturnsWrong.of [DecidableEq X] {A : Alg X} {env : Env X} {fuel : ℕ}
    (h : ∃ p ∈ A.resAndFits env fuel, p.1.2 ≠ env.opt.mul .pinf ∧ ∀ c ∈ p.2, foundBy .minimization c p.1 = false) : A.ReturnsWrong env := by
  obtain ⟨⟨r, l⟩, h, hi, hr⟩ := h
  unfold Alg.resAndFits at h
  split at h
  · rename_i r' e w heq
    cases h
    refine ⟨fuel, _, r.1, r.2, congrArg Prod.fst heq, rfl, hi, fun hc => ?_⟩
    rw [heq] at hc
    have := hr _ hc
    rw [foundBy_ok (p := r) (by simp [OptType.mul])] at this
    cases this
  · cases h

/-- A completed run of `A` in `env` that evaluates a solution out of bounds. -/
def Alg.EvaluatesOutside {D : ℕ} (B : Box D) (A : Alg (Vec D)) (env : Env (Vec D)) : Prop := ∃ fuel out, (A.exec env true 0 fuel).1 = .ok out ∧
  ∃ c ∈ (A.exec env true 0 fuel).2.calls, ¬ B.NotOut c.1

theorem Alg.EvaluatesOutside.of {D : ℕ} {B : Box D} {A : Alg (Vec D)} {env : Env (Vec D)} {fuel : ℕ}
    (h : ∃ p ∈ A.resAndCalls env fuel, ∃ x ∈ p.2, ¬ B.NotOut x) : A.EvaluatesOutside B env := by
  obtain ⟨⟨r, l⟩, h, x, hx, hr⟩ := h
  unfold Alg.resAndCalls at h
  split at h
  · rename_i r' e w heq
    cases h
    obtain ⟨c, hc, rfl⟩ := List.mem_map.1 hx
    exact ⟨fuel, _, congrArg Prod.fst heq, c, by rw [heq]; exact hc, hr⟩
  · cases h

end NiaPy
