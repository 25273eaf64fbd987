import Verif.AlgLemmas
import Verif.Example

/-!
# Properties of `Algorithm.get_best` and `Algorithm.run` (C16–C20) and, generically, of whole algorithms (C25–C31)

`Verified A Good seeded term K` collects the obligations an algorithm has to meet; the modules of the single
algorithms prove it, and the theorems below turn it into statements about every run.
-/

namespace NiaPy
variable {X α : Type}

/-! ## C16 -/

/-- C16: with NaN-free values, `get_best` returns the first best individual of the population if it is at least as good as
the incumbent, and the incumbent otherwise. -/
theorem C16_get_best (pop : List X) (fit : List Fl) (xb : X) (fxb : Fl) (hl : pop.length = fit.length) (hne : fit ≠ [])
    (hnn : ∀ v ∈ fit, v ≠ .nan) (hb : fxb ≠ .nan) :
    ∃ x f, getBest pop fit (some xb) fxb = .ok (x, f) ∧ f ≤ fxb ∧ (∀ v ∈ fit, f ≤ v) ∧
      ((∃ k : ℕ, pop[k]? = some x ∧ fit[k]? = some f ∧ ∀ j, j < k → ∀ v, fit[j]? = some v → f < v) ∨
       (x = xb ∧ f = fxb ∧ ∀ v ∈ fit, f < v)) := by
  obtain ⟨k, m, h1, h2, h3, h4⟩ := argmin_spec fit hne hnn
  have hm : m ≠ .nan := hnn m (List.mem_of_getElem? h2)
  obtain ⟨hk, hk'⟩ := List.getElem?_eq_some_iff.1 h2
  have hp : pop[k]? = some (pop[k]'(by omega)) := List.getElem?_eq_getElem _
  by_cases hle : m ≤ fxb
  · refine ⟨pop[k]'(by omega), m, ?_, hle, h3, Or.inl ⟨k, hp, h2, h4⟩⟩
    simp only [getBest, h1, h2, if_pos hle, hp]
  · have hlt := Fl.lt_of_not_le hm hb hle
    refine ⟨xb, fxb, ?_, Fl.le_refl hb, fun v hv => Fl.le_trans (Fl.le_of_lt hlt) (h3 v hv), Or.inr ⟨rfl, rfl, ?_⟩⟩
    · simp only [getBest, h1, h2, if_neg hle]
    · exact fun v hv => Fl.lt_of_lt_of_le hlt (h3 v hv)

/-- C16 without an incumbent (the first call in `run`): a best individual of the population. -/
theorem C16_get_best_first (pop : List X) (fit : List Fl) (hl : pop.length = fit.length) (hne : fit ≠ [])
    (hnn : ∀ v ∈ fit, v ≠ .nan) :
    ∃ x f, getBest pop fit none .pinf = .ok (x, f) ∧ (∀ v ∈ fit, f ≤ v) ∧
      ∃ k : ℕ, pop[k]? = some x ∧ fit[k]? = some f ∧ ∀ j, j < k → ∀ v, fit[j]? = some v → f < v := by
  obtain ⟨k, m, h1, h2, h3, h4⟩ := argmin_spec fit hne hnn
  have hm : m ≠ .nan := hnn m (List.mem_of_getElem? h2)
  obtain ⟨hk, hk'⟩ := List.getElem?_eq_some_iff.1 h2
  have hp : pop[k]? = some (pop[k]'(by omega)) := List.getElem?_eq_getElem _
  refine ⟨pop[k]'(by omega), m, ?_, h3, k, hp, h2, h4⟩
  simp only [getBest, h1, h2, if_pos (Fl.le_pinf hm), hp]

theorem argminGo_nan (cur : Fl) (ci i : ℕ) (vs pre : List Fl) (hpre : pre.length = i) (hci : pre[ci]? = some cur)
    (h : cur = .nan ∨ .nan ∈ vs) : (pre ++ vs)[argminGo cur ci i vs]? = some .nan := by
  have hlt := (List.getElem?_eq_some_iff.1 hci).1
  induction vs generalizing cur ci i pre with
  | nil =>
    rcases h with h | h
    · subst h; simpa [argminGo] using hci
    · simp at h
  | cons v vs ih =>
    rw [argminGo]
    by_cases hc : cur = .nan
    · subst hc; rw [if_pos rfl, List.getElem?_append_left hlt]; exact hci
    · rw [if_neg hc]
      have h' : v = .nan ∨ .nan ∈ vs := by
        rcases h with h | h
        · exact absurd h hc
        · rcases List.mem_cons.1 h with h | h
          · exact Or.inl h.symm
          · exact Or.inr h
      have happ : pre ++ v :: vs = (pre ++ [v]) ++ vs := by simp
      by_cases hv : v < cur ∨ v = .nan
      · rw [if_pos hv, happ]
        exact ih v i (i + 1) (pre ++ [v]) (by simp [hpre]) (by simp [← hpre]) h' (by simp [hpre])
      · rw [if_neg hv, happ]
        have hvn : ¬ v = .nan := fun e => hv (Or.inr e)
        exact ih cur ci (i + 1) (pre ++ [v]) (by simp [hpre]) (by rw [List.getElem?_append_left hlt]; exact hci)
          (Or.inr (h'.resolve_left hvn)) (by simp; omega)

theorem argmin_nan (fit : List Fl) (h : .nan ∈ fit) : ∃ k, argmin fit = .ok k ∧ fit[k]? = some .nan := by
  cases fit with
  | nil => simp at h
  | cons v vs =>
    refine ⟨_, rfl, argminGo_nan v 0 1 vs [v] rfl rfl ?_⟩
    rcases List.mem_cons.1 h with h | h
    · exact Or.inl h.symm
    · exact Or.inr h

/-- C16, what NaN does: as soon as one fitness value is NaN, `get_best` ignores the whole population and keeps the
incumbent, however good the other individuals are. -/
theorem C16_nan_keeps_incumbent (pop : List X) (fit : List Fl) (xb : X) (fxb : Fl) (h : .nan ∈ fit) :
    getBest pop fit (some xb) fxb = .ok (xb, fxb) := by
  obtain ⟨k, h1, h2⟩ := argmin_nan fit h
  simp [getBest, h1, h2]

/-- C16: if the initial population has a NaN fitness, `run` cannot even start (`None.copy()`). -/
theorem C16_nan_first (pop : List X) (fit : List Fl) (h : .nan ∈ fit) :
    getBest pop fit none .pinf = .error .attributeError := by
  obtain ⟨k, h1, h2⟩ := argmin_nan fit h
  simp [getBest, h1, h2]

/-- Two individuals, the second one better than the incumbent; and the same with a NaN. -/
example : getBest ["a", "b"] [.fin 5, .fin 3] (some "c") (.fin 4) = .ok ("b", .fin 3) ∧
    getBest ["a", "b"] [.nan, .fin 3] (some "c") (.fin 4) = .ok ("c", .fin 4) :=
  ⟨by rfl, C16_nan_keeps_incumbent _ _ _ _ (by simp)⟩

/-! ## C19, C20: exceptions and the sign of the result -/

/-- Outcome and final world of `algorithm.run(task)` on a fresh task. -/
def Alg.exec (A : Alg X) (env : Env X) (main : Bool) (ncb fuel : ℕ) : Except PyErr (RunOut X) × World X :=
  (A.run env.opt main ncb fuel).run env (World.init env.opt)

/-- Outcome and final world of the body of `run`. -/
def Alg.execBody (A : Alg X) (env : Env X) (ncb fuel : ℕ) : Except PyErr (A.σ × X × Fl) × World X :=
  (A.body ncb fuel).run env (World.init env.opt)

theorem exec_eq (A : Alg X) (env : Env X) (main : Bool) (ncb fuel : ℕ) :
    A.exec env main ncb fuel =
      (match (A.execBody env ncb fuel).1 with
        | .ok r => .ok ⟨some (r.2.1, env.opt.mul r.2.2), none⟩
        | .error e => if main = true ∨ e = .outOfFuel then .error e else .ok ⟨none, some e⟩,
       (A.execBody env ncb fuel).2) := by
  simp only [Alg.exec, Alg.run, Prog.run_tryCatch, Prog.run_bind, Alg.execBody]
  rcases h : (A.body ncb fuel).run env (World.init env.opt) with ⟨r | e, w⟩
  · simp only
    split <;> simp
  · rfl

/-- C19: whatever goes wrong inside `run` (objective, callback, algorithm) is not swallowed. In the main thread the
exception is raised; elsewhere `(None, None)` is returned, the exception is kept and `bad_run` says so. Conversely a
run that ends normally returns a solution, keeps no exception and is not bad. -/
theorem C19_exceptions (A : Alg X) (env : Env X) (main : Bool) (ncb fuel : ℕ) :
    (∀ e, (A.execBody env ncb fuel).1 = .error e → e ≠ .outOfFuel →
      (main = true → (A.exec env main ncb fuel).1 = .error e) ∧
      (main = false → ∃ out, (A.exec env main ncb fuel).1 = .ok out ∧ out.result = none ∧ out.exception = some e ∧
        out.badRun = true)) ∧
    (∀ r, (A.execBody env ncb fuel).1 = .ok r → ∃ out, (A.exec env main ncb fuel).1 = .ok out ∧
      out.result = some (r.2.1, env.opt.mul r.2.2) ∧ out.badRun = false) := by
  refine ⟨fun e he hne => ⟨fun hm => ?_, fun hm => ?_⟩, fun r hr => ?_⟩
  · rw [exec_eq]; simp [he, hm]
  · rw [exec_eq]; simp [he, hm, hne, RunOut.badRun]
  · rw [exec_eq]; simp [hr, RunOut.badRun]

/-! ## C90: `bad_run` of an object used more than once -/

/-- The attribute `exception` of an algorithm object after runs with these outcomes: `None` in a new object (algorithm.py:108), set when a run
outside the main thread fails (algorithm.py:322), never reset. -/
def exceptionAfter (rs : List (Except PyErr (RunOut X))) : Option PyErr :=
  rs.foldl (fun old r => match r with
    | .ok out => match out.exception with
      | some e => some e
      | none => old
    | .error _ => old) none

/-- `Algorithm.bad_run` (algorithm.py:325-332) after runs with these outcomes. -/
def badRunAfter (rs : List (Except PyErr (RunOut X))) : Bool := (exceptionAfter rs).isSome

/-- **C90.** `bad_run` says whether any of the runs so far has returned `(None, None)`; a run that raised leaves it unchanged. -/
theorem C90_any (rs : List (Except PyErr (RunOut X))) : badRunAfter rs = true ↔ ∃ out, .ok out ∈ rs ∧ out.badRun = true := by
  suffices h : ∀ old : Option PyErr, (rs.foldl (fun old r => match r with
      | .ok out => match out.exception with
        | some e => some e
        | none => old
      | .error _ => old) old).isSome = true ↔ old.isSome = true ∨ ∃ out, .ok out ∈ rs ∧ out.badRun = true by
    simpa [badRunAfter, exceptionAfter] using h none
  induction rs with
  | nil => simp
  | cons r rs ih =>
    intro old
    rw [List.foldl_cons, ih]
    rcases r with e | ⟨res, ex⟩
    · simp
    · rcases ex with - | e <;> simp [RunOut.badRun, or_and_right, exists_or]

/-- **C90.** As long as no earlier run has returned `(None, None)`, `bad_run` tells whether the last run did. -/
theorem C90_bad_run_partial (rs : List (Except PyErr (RunOut X))) (hrs : ∀ out, .ok out ∈ rs → out.badRun = false) (A : Alg X) (env : Env X)
    (ncb fuel : ℕ) (hf : (A.execBody env ncb fuel).1 ≠ .error .outOfFuel) :
    badRunAfter (rs ++ [(A.exec env false ncb fuel).1]) = true ↔ ∃ e, (A.execBody env ncb fuel).1 = .error e := by
  rw [C90_any, exec_eq]
  constructor
  · rintro ⟨out, ho, hb⟩
    rw [List.mem_append, List.mem_singleton] at ho
    rcases ho with ho | ho
    · rw [hrs out ho] at hb; cases hb
    · rcases h : (A.execBody env ncb fuel).1 with e | r
      · exact ⟨e, rfl⟩
      · rw [h] at ho; cases ho; cases hb
  · rintro ⟨e, he⟩
    have : e ≠ .outOfFuel := fun h => hf (by rw [he, h])
    refine ⟨⟨none, some e⟩, ?_, rfl⟩
    simp [he, this]

/-- C19: an exception raised by the very first callback reaches the caller. -/
theorem C19_first_callback (A : Alg X) (env : Env X) (ncb fuel : ℕ) (e : PyErr) (hn : 0 < ncb)
    (h : env.callback 0 0 .beforeRun = .error e) : (A.execBody env ncb fuel).1 = .error e := by
  obtain ⟨n, rfl⟩ := Nat.exists_eq_succ_of_ne_zero (by omega : ncb ≠ 0)
  simp only [Alg.execBody, Alg.body, fireAll, List.range_succ_eq_map, forList, Prog.bind_def, Prog.run_bind, Prog.run_fire]
  simp [World.init, h]

/-! ## The obligations of an algorithm -/

/-- `A` meets its obligations in all contexts that satisfy `H`: `Good` are the points it may evaluate without repairing
them; `seeded` says that it passes its generator to `task.repair`; `term` that its `run_iteration` contains no unbounded
rejection loop; `K` counts its evaluations; `al` says that the fitness values of its population always belong to the individuals. -/
def VerifiedIf (H : Ctx X → Prop) (A : Alg X) (Good : X → Prop) (seeded term : Bool) (K : Cost) (al : Prop := True) : Prop :=
  ∃ Inv : Ctx X → A.σ → Fl → Prop, ∀ C : Ctx X, H C → (∀ x, Good x → C.G x) → (seeded = false → C.ent) →
    (term = false → C.oof) → AlgOKW A C K al (Inv C)

/-- The pairs of a solution and a fitness value an algorithm may hold: solutions that satisfy `P`, with a value that belongs
to the solution (if `sh`) or just to some solution (if not). -/
def Held (sh : Prop) (P : X → Prop) (F : X → Fl → Prop) (x : X) (v : Fl) : Prop := ∃ y, (sh → y = x) ∧ P y ∧ F y v

theorem Held.of {sh : Prop} {P : X → Prop} {F : X → Fl → Prop} {x : X} {v : Fl} (hx : P x) (h : F x v) : Held sh P F x v :=
  ⟨x, fun _ => rfl, hx, h⟩

theorem Held.sharp {sh : Prop} {P : X → Prop} {F : X → Fl → Prop} {x : X} {v : Fl} (hs : sh) (h : Held sh P F x v) : P x ∧ F x v := by
  obtain ⟨y, hy, h⟩ := h
  rw [← hy hs]; exact h

theorem Held.imp {sh : Prop} {P : X → Prop} {F F' : X → Fl → Prop} {x : X} {v : Fl} (hF : ∀ x, F x v → F' x v) (h : Held sh P F x v) :
    Held sh P F' x v := by
  obtain ⟨y, hy, hp, h⟩ := h
  exact ⟨y, hy, hp, hF _ h⟩

theorem Held.other {sh : Prop} {P : X → Prop} {F : X → Fl → Prop} (hs : ¬ sh) (x y : X) (v : Fl) (h : Held sh P F x v) : Held sh P F y v := by
  obtain ⟨z, _, h⟩ := h
  exact ⟨z, fun h => absurd h hs, h⟩

/-- The assumption `H` holds in `env` if the points allowed are those satisfying `P`; with best-value tracking only if
`trk`, and (unless `sh`) without a claim that solutions and fitness values belong together. -/
def MetBy (H : Ctx X → Prop) (env : Env X) (trk : Prop) (P : X → Prop := fun _ => True) (sh : Prop := True) : Prop :=
  ∀ C : Ctx X, (∀ x v, C.F x v → Held sh P (Possible env) x v) → (C.trk → trk) → C.G = P → (∀ x y, C.R x y → env.Repairs x y) →
    (¬ sh → ∀ x y v, C.F x v → C.F y v) → H C

/-- `A` meets its obligations without further assumptions. -/
def Verified (A : Alg X) (Good : X → Prop) (seeded term : Bool) (K : Cost) : Prop :=
  ∃ Inv : Ctx X → A.σ → Fl → Prop, ∀ C : Ctx X, (∀ x, Good x → C.G x) → (seeded = false → C.ent) →
    (term = false → C.oof) → AlgOK A C K (Inv C)

/-- No assumption. -/
def NoAssumption : Ctx X → Prop := fun _ => True

/-- The algorithm is not expected to keep the best value it has evaluated. -/
def NoTracking : Ctx X → Prop := fun C => ¬ C.trk

/-- The fitness values are not tied to the solutions: all that is said of them is that they were returned by an evaluation. -/
def Untied : Ctx X → Prop := fun C => ∀ x y v, C.F x v → C.F y v

theorem metBy_untied (env : Env X) (trk : Prop) {P : X → Prop} : MetBy Untied env trk P False := fun _ _ _ _ _ h => h id
theorem metBy_none (env : Env X) (trk : Prop) (P : X → Prop := fun _ => True) (sh : Prop := True) : MetBy NoAssumption env trk P sh := fun _ _ _ _ _ _ => trivial
theorem metBy_noTracking (env : Env X) (P : X → Prop := fun _ => True) (sh : Prop := True) : MetBy NoTracking env False P sh := fun _ _ h _ _ _ => h

theorem Verified.toIf {A : Alg X} {Good : X → Prop} {seeded term : Bool} {K : Cost} (h : Verified A Good seeded term K) :
    VerifiedIf NoAssumption A Good seeded term K := by
  obtain ⟨Inv, h⟩ := h
  exact ⟨Inv, fun C _ h1 h2 h3 => (h C h1 h2 h3).toW⟩

theorem bestOf_mul {opt : OptType} {vs : List Fl} {b : Fl} (h : BestOf opt vs b) :
    b ≠ .nan ∧ ∀ v ∈ vs, v ≠ .nan → opt.mul b ≤ opt.mul v := by
  cases opt with
  | minimization => exact ⟨h.1, fun v hv hn => h.2.2 v hv hn⟩
  | maximization => exact ⟨h.1, fun v hv hn => (Fl.neg_le_neg _ _).2 (h.2.2 v hv hn)⟩

/-- What a run of a verified algorithm is like, everything at once. `fin` is the log of objective calls. -/
theorem VerifiedIf.run {H : Ctx X → Prop} {A : Alg X} {Good : X → Prop} {seeded term : Bool} {K : Cost} {al : Prop}
    (hA : VerifiedIf H A Good seeded term K al) (env : Env X) (trk : Prop) (P : X → Prop) (sh : Prop) (hH : MetBy H env trk P sh)
    (hG : ∀ x, Good x → P x) (hR : ∀ rng k x, P (env.repairFn rng k x)) (ncb fuel : ℕ) :
    let fin := (A.execBody env ncb fuel).2
    (∀ c ∈ fin.calls, P c.1) ∧
    LogOK (Held sh P (FitOK env.opt fin.calls)) al (trk ∧ NoNaN env) ncb fin.events ∧
    ∀ r, (A.execBody env ncb fuel).1 = .ok r → Held sh P (FitOK env.opt fin.calls) r.2.1 r.2.2 ∧
      (trk → NoNaN env → env.opt.mul r.2.2 = fin.st.xf) := by
  intro fin
  obtain ⟨Inv, hok⟩ := hA
  have hfin : CallsOK env fin := (CallsOK.init env).run _
  let C : Ctx X := ⟨P, Held sh P (FitOK env.opt fin.calls), True, True, True,
    LogOK (Held sh P (FitOK env.opt fin.calls)) al (trk ∧ NoNaN env) ncb, trk, env.Repairs⟩
  have hNN : trk → NoNaN env → C.NN := fun ht hnn => ⟨ht, fun x v ⟨y, _, _, hf⟩ => fitOK_nn env hnn _ y v hf⟩
  have hw : (A.body ncb fuel).wp C _ ⟨env.opt.mul (World.init (X := X) env.opt).st.xf, 0, []⟩ :=
    (hok C.quiet (hH _ (fun x v h => h.imp fun _ h => hfin.possible h) id rfl (fun _ _ h => h) fun hs => Held.other hs) hG (fun _ => trivial) (fun _ => trivial)).body (C := C) (ncb := ncb)
      (fun L h => ⟨h.aligned, fun hn => h.dom (hNN hn.1 hn.2), fun hn => h.mono (hNN hn.1 hn.2), h.order, h.same, h.last⟩) trivial trivial fuel
      (by simp [World.init, TaskSt.init]) rfl
  obtain ⟨g', ht, hq, -⟩ := wp_sound C env (.of hR fun _ _ h => h) (Or.inl trivial) _ _ _ (World.init env.opt) hw (fun x v hg h => .of hg h) rfl rfl
  refine ⟨fun c hc => ?_, ?_, fun r hr => ?_⟩
  · rcases ht.good c hc with h | h
    · simp [World.init] at h
    · exact h
  · rcases ht.events with h | h
    · have : fin.events = [] := h
      rw [this]; exact LogOK.nil
    · exact h
  · obtain ⟨_, hf, hc, _⟩ := hq r hr
    refine ⟨hf, fun htr hnn => ?_⟩
    have hb : g'.b = env.opt.mul fin.st.xf := ht.best rfl
    rw [hc (hNN htr hnn), hb, OptType.mul_mul]

/-- C25: every point handed to the objective is feasible, provided the repair function of the task yields feasible
points (C09, C11) and the points `A` evaluates unrepaired are feasible. Holds in every prefix of every run, also when
the objective or a callback raises. -/
theorem C25_feasible {H : Ctx X → Prop} {A : Alg X} {Good : X → Prop} {s t : Bool} {K : Cost} {al : Prop} (hA : VerifiedIf H A Good s t K al)
    (env : Env X) (Feas : X → Prop) {sh : Prop} (hH : MetBy H env False Feas sh)
    (hG : ∀ x, Good x → Feas x) (hR : ∀ rng k x, Feas (env.repairFn rng k x)) (main : Bool)
    (ncb fuel : ℕ) : ∀ c ∈ (A.exec env main ncb fuel).2.calls, Feas c.1 := by
  rw [exec_eq]; exact (hA.run env False Feas sh hH hG hR ncb fuel).1

/-- C26: the fitness returned by `run` is the best value the objective returned during the run (`task.x_f`), in the
user's sign (C20). -/
theorem C26_returned_is_best {H : Ctx X → Prop} {A : Alg X} {Good : X → Prop} {s t : Bool} {K : Cost} {al : Prop}
    (hA : VerifiedIf H A Good s t K al) (env : Env X) {P : X → Prop} {sh : Prop} (hH : MetBy H env True P sh)
    (hnn : NoNaN env) (main : Bool) (ncb fuel : ℕ) (out : RunOut X) (x : X) (f : Fl)
    (hrun : (A.exec env main ncb fuel).1 = .ok out) (hres : out.result = some (x, f)) (hG : ∀ x, Good x → P x := by intros; trivial)
    (hR : ∀ rng k x, P (env.repairFn rng k x) := by intros; trivial) :
    f = (A.exec env main ncb fuel).2.st.xf ∧ BestOf env.opt (values (A.exec env main ncb fuel).2.calls) f := by
  rw [exec_eq] at hrun ⊢
  have key : f = (A.execBody env ncb fuel).2.st.xf := by
    simp only at hrun
    split at hrun
    · rename_i r hr
      cases hrun
      have := ((hA.run env True P sh hH hG hR ncb fuel).2.2 r hr).2 trivial hnn
      cases hres; exact this
    · split at hrun
      · cases hrun
      · cases hrun; cases hres
  refine ⟨key, ?_⟩
  rw [key]; exact C03_xf_is_best env (A.body ncb fuel)

/-- C27: the solution returned was evaluated and the fitness returned with it is what the objective returned for it; the
only exception is a run in which the task had stopped before anything finite was found, then the fitness is `+inf`
(`-inf` when maximizing). -/
theorem C27_solution_fitness {H : Ctx X → Prop} {A : Alg X} {Good : X → Prop} {s t : Bool} {K : Cost} {al : Prop}
    (hA : VerifiedIf H A Good s t K al) (env : Env X) {P : X → Prop} (hH : MetBy H env False P)
    (main : Bool) (ncb fuel : ℕ) (out : RunOut X) (x : X) (f : Fl)
    (hrun : (A.exec env main ncb fuel).1 = .ok out) (hres : out.result = some (x, f)) (hG : ∀ x, Good x → P x := by intros; trivial)
    (hR : ∀ rng k x, P (env.repairFn rng k x) := by intros; trivial) :
    (x, .ok f) ∈ (A.exec env main ncb fuel).2.calls ∨ f = env.opt.mul .pinf := by
  rw [exec_eq] at hrun ⊢
  simp only at hrun ⊢
  split at hrun
  · rename_i r hr
    cases hrun
    have := (((hA.run env False P True hH hG hR ncb fuel).2.2 r hr).1.sharp trivial).2
    cases hres
    rcases this with h | ⟨v, hm, hv⟩
    · exact Or.inr (by rw [h])
    · left; rw [hv, OptType.mul_mul]; exact hm
  · split at hrun
    · cases hrun
    · cases hrun; cases hres

/-- `C28_callback_log` for contexts in which a fitness need not belong to the solution beside it. -/
theorem callback_log {H : Ctx X → Prop} {A : Alg X} {Good : X → Prop} {s t : Bool} {K : Cost} {al : Prop}
    (hA : VerifiedIf H A Good s t K al) (env : Env X) (trk : Prop) {P : X → Prop} {sh : Prop} (hH : MetBy H env trk P sh) (main : Bool)
    (ncb fuel : ℕ) (hG : ∀ x, Good x → P x := by intros; trivial) (hR : ∀ rng k x, P (env.repairFn rng k x) := by intros; trivial) :
    LogOK (Held sh P (FitOK env.opt (A.exec env main ncb fuel).2.calls)) al (trk ∧ NoNaN env) ncb (A.exec env main ncb fuel).2.events := by
  rw [exec_eq]
  exact (hA.run env trk P sh hH hG hR ncb fuel).2.1

/-- C18, C28, C29: the callbacks of a run are called in the documented order, all callbacks of a round are shown the same,
every fitness value they are shown belongs to the individual beside it, and (if the algorithm keeps the best value and no
fitness value is NaN) the best fitness they are shown never gets worse and is never worse than the population shown. -/
theorem C28_callback_log {H : Ctx X → Prop} {A : Alg X} {Good : X → Prop} {s t : Bool} {K : Cost} {al : Prop}
    (hA : VerifiedIf H A Good s t K al) (env : Env X) (trk : Prop) {P : X → Prop} (hH : MetBy H env trk P) (main : Bool) (ncb fuel : ℕ) (hG : ∀ x, Good x → P x := by intros; trivial)
    (hR : ∀ rng k x, P (env.repairFn rng k x) := by intros; trivial) :
    LogOK (FitOK env.opt (A.exec env main ncb fuel).2.calls) al (trk ∧ NoNaN env) ncb (A.exec env main ncb fuel).2.events := by
  rw [exec_eq]
  exact (hA.run env trk P True hH hG hR ncb fuel).2.1.imp fun x v h => (h.sharp trivial).2

/-! ## C31 -/

/-- The same environment with another operating-system entropy. -/
def Env.withEntropy (env : Env X) (r : Rng) : Env X := { env with entropy := r }

theorem run_entropy {Q : α → Ghost X → Prop} (env : Env X) {P : X → Prop} {sh : Prop} (hR : ∀ rng k x, P (env.repairFn rng k x)) (p : Prog X α) (g : Ghost X)
    (h : p.wp ⟨P, Held sh P (Possible env), False, True, True, fun _ => True, False, env.Repairs⟩ Q g) (r : Rng)
    (w : World X) (hw : CallsOK env w) : p.run (env.withEntropy r) w = p.run env w := by
  induction p generalizing g w with
  | pure a => rfl
  | throw e => rfl
  | op o k ih =>
    have hst : stepOp (env.withEntropy r) w o = stepOp env w o := by
      cases o with
      | repair s x =>
        cases s with
        | true => rfl
        | false => rcases h.1 with h | h <;> simp at h
      | _ => rfl
    simp only [Prog.run, hst]
    have hex : ∃ g', (k (stepOp env w o).1).wp ⟨P, Held sh P (Possible env), False, True, True, fun _ => True, False, env.Repairs⟩ Q g' := by
      have h' : opSpec ⟨P, Held sh P (Possible env), False, True, True, fun _ => True, False, env.Repairs⟩
          ⟨env.opt.mul w.st.xf, 0, w.events⟩ o (fun r _ => ∃ g', (k r).wp ⟨P, Held sh P (Possible env), False, True, True, fun _ => True, False, env.Repairs⟩ Q g') := by
        cases o with
        | eval x => exact ⟨h.1, fun v hv => ⟨_, h.2.1 v hv⟩, fun e he => ⟨_, h.2.2 e he⟩⟩
        | nextIter => exact ⟨trivial, _, h.2⟩
        | look => exact fun v => ⟨_, h v⟩
        | repair s x => exact ⟨h.1, fun y hy hr => ⟨_, h.2 y hy hr⟩⟩
        | rand => exact fun r h0 h1 => ⟨_, h r h0 h1⟩
        | unif lo hi => exact ⟨fun e he => ⟨_, h.1 e he⟩, fun r hr => ⟨_, h.2 r hr⟩⟩
        | dist d a b => exact ⟨fun e he => ⟨_, h.1 e he⟩, fun r => ⟨_, h.2 r⟩⟩
        | int n => exact ⟨fun h0 => ⟨_, h.1 h0⟩, fun k hk => ⟨_, h.2 k hk⟩⟩
        | perm n => exact fun l hl => ⟨_, h l hl⟩
        | argsort fs => exact fun l hl hs => ⟨_, h l hl hs⟩
        | fire i e => exact ⟨trivial, ⟨_, h.2.1⟩, fun e he => ⟨_, h.2.2 e he⟩⟩
      obtain ⟨g', hk, -⟩ := opSpec_sound _ env (.of hR fun _ _ h => h) (Or.inl trivial) o _ _ w h'
        (fun x v hg hf => .of hg ((hw.run (.op o .pure)).possible (w := _) hf)) rfl rfl
      exact hk
    obtain ⟨g', hk⟩ := hex
    exact ih _ g' hk _ (hw.run (.op o .pure))

/-- C31: the outcome of a run depends on the seeded generator of the algorithm only, not on the operating system's
entropy; so two runs with the same seed on the same task are identical (result, evaluated points, callback events). -/
theorem C31_reproducible {H : Ctx X → Prop} {A : Alg X} {Good : X → Prop} {t : Bool} {K : Cost} {al : Prop}
    (hA : VerifiedIf H A Good true t K al) (env : Env X) {P : X → Prop} {sh : Prop} (hH : MetBy H env False P sh) (r : Rng)
    (main : Bool) (ncb fuel : ℕ) (hG : ∀ x, Good x → P x := by intros; trivial)
    (hR : ∀ rng k x, P (env.repairFn rng k x) := by intros; trivial) : A.exec (env.withEntropy r) main ncb fuel = A.exec env main ncb fuel := by
  obtain ⟨Inv, hok⟩ := hA
  let C : Ctx X := ⟨P, Held sh P (Possible env), False, True, True, fun _ => True, False, env.Repairs⟩
  have hw := (hok C.quiet (hH _ (fun _ _ h => h) id rfl (fun _ _ h => h) fun hs => Held.other hs) hG nofun (fun _ => trivial)).body (C := C) (ncb := ncb)
    (fun _ _ => trivial) trivial trivial fuel (g := ⟨.pinf, 0, []⟩) rfl rfl
  have := run_entropy env hR _ _ hw r (World.init env.opt) (CallsOK.init env)
  rw [exec_eq, exec_eq]
  have hb : A.execBody (env.withEntropy r) ncb fuel = A.execBody env ncb fuel := this
  rw [hb]; rfl

/-! ## C17 -/

/-- Neither the objective nor a callback raises `outOfFuel` (which is not a Python exception). -/
abbrev NoFuelError (env : Env X) : Prop := Clean env

theorem run_quiet {Q : α → Ghost X → Prop} {p : Prog X α} {env : Env X} {w : World X} {G : X → Prop} {F ent Ev trk}
    (h : p.wp ⟨G, F, ent, False, False, Ev, trk, env.Repairs⟩ Q ⟨env.opt.mul w.st.xf, 0, w.events⟩) (hG : ∀ rng k x, G (env.repairFn rng k x))
    (hF : ∀ x v, G x → FitOK env.opt (p.run env w).2.calls x v → F x v) (hE : Clean env) :
    (p.run env w).1 ≠ .error .outOfFuel ∧ (p.run env w).2.st.iters = w.st.iters ∧
      ∀ a, (p.run env w).1 = .ok a → ∃ g', Q a g' ∧ g'.b = env.opt.mul (p.run env w).2.st.xf := by
  obtain ⟨g', ht, hq, ho⟩ := wp_sound ⟨G, F, ent, False, False, Ev, trk, env.Repairs⟩ env (.of hG fun _ _ h => h) (Or.inr hE) p Q _ w h hF rfl rfl
  exact ⟨fun he => ho he, ht.iters.resolve_left id, fun a ha => ⟨g', hq a ha, ht.best rfl⟩⟩

theorem fireAll_st (env : Env X) (ncb : ℕ) (e : Event X) (w : World X) : ((fireAll ncb e).run env w).2.st = w.st := by
  have key : ∀ l : List ℕ, ∀ w : World X, ((forList l (fun i _ => Prog.fire i e) ()).run env w).2.st = w.st := by
    intro l
    induction l with
    | nil => intro w; rfl
    | cons a l ih =>
      intro w
      simp only [forList, Prog.run_bind, Prog.run_fire]
      cases env.callback a w.events.length e with
      | ok u => simp only; rw [ih]
      | error e => rfl
  exact key _ w

/-- The `while` loop of a verified algorithm ends within `max_iters` rounds. -/
theorem loop_terminates {A : Alg X} {Inv : A.σ → Fl → Prop} {env : Env X} {P : X → Prop} {sh : Prop} (hR : ∀ rng k x, P (env.repairFn rng k x))
    {K : Cost} {al : Prop} (hok : AlgOKW A ⟨P, Held sh P (Possible env), True, False, False, fun _ => False, False, env.Repairs⟩ K al Inv) (hE : Clean env) (m : ℕ)
    (hm : env.maxIters = some m) (ncb fuel : ℕ) (s : A.σ) (xb : X) (fxb : Fl) (w : World X)
    (hi : Inv s (env.opt.mul w.st.xf)) (hw : CallsOK env w) (hf : Held sh P (Possible env) xb fxb)
    (hle : w.st.iters ≤ m) (hfuel : m < w.st.iters + fuel) :
    ((A.loop ncb fuel s xb fxb).run env w).1 ≠ .error .outOfFuel ∧
      ((A.loop ncb fuel s xb fxb).run env w).2.st.iters ≤ m := by
  induction fuel generalizing s xb fxb w with
  | zero => omega
  | succ fuel ih =>
    have fire : ∀ (e : Event X) (w : World X), ((fireAll ncb e).run env w).1 ≠ .error .outOfFuel ∧
        ((fireAll ncb e).run env w).2.st.iters = w.st.iters ∧ ((fireAll ncb e).run env w).2.st = w.st := fun e w => by
      have := run_quiet (Q := fun _ _ => True) (p := fireAll ncb e) (env := env) (w := w) (G := fun _ => True)
        (F := fun _ _ => True) (ent := True) (Ev := fun _ => True) (trk := False) (wp_fireAll (fun _ _ => trivial) trivial)
        (fun _ _ _ => trivial) (fun _ _ _ _ => trivial) hE
      exact ⟨this.1, this.2.1, fireAll_st env ncb e w⟩
    simp only [Alg.loop, Prog.bind_def, Prog.run_bind, Prog.run_look]
    by_cases hs : stoppingCondition env.toTaskCfg w.st = true
    · simp [hs, hle]
    have hlt : w.st.iters < m := by
      simp only [stoppingCondition, hm, reached, Bool.or_eq_true, decide_eq_true_eq, not_or] at hs
      omega
    simp only [hs]
    simp only [Bool.false_eq_true, if_false, Prog.run_bind]
    have f1 := fire (.beforeIteration (A.pop s) (A.fit s) xb fxb) w
    rcases h1 : (fireAll ncb (.beforeIteration (A.pop s) (A.fit s) xb fxb)).run env w with ⟨e | u, w1⟩
    · rw [h1] at f1
      exact ⟨by intro h; cases h; exact f1.1 rfl, by have := f1.2.1; simp only at this ⊢; omega⟩
    rw [h1] at f1
    simp only at f1 ⊢
    have hw1 : CallsOK env w1 := by
      have := hw.run (fireAll ncb (.beforeIteration (A.pop s) (A.fit s) xb fxb)); rwa [h1] at this
    have f2 := run_quiet (w := w1) (env := env) (hok.iter s xb fxb _ (by rw [f1.2.2]; exact hi) hf
      (fun hn => hn.trk.elim)) hR (fun _ _ hg h => .of hg ((hw1.run _).possible h)) hE
    have hw2 := hw1.run (A.iter s xb fxb)
    rcases h2 : (A.iter s xb fxb).run env w1 with ⟨e | r, w2⟩
    · rw [h2] at f2
      exact ⟨by intro h; cases h; exact f2.1 rfl, by have := f2.2.1; simp only at this ⊢; omega⟩
    rw [h2] at f2 hw2
    simp only at f2 hw2 ⊢
    have f3 := fire (.afterIteration (A.pop r.1) (A.fit r.1) r.2.1 r.2.2) w2
    rcases h3 : (fireAll ncb (.afterIteration (A.pop r.1) (A.fit r.1) r.2.1 r.2.2)).run env w2 with ⟨e | u, w3⟩
    · rw [h3] at f3
      exact ⟨by intro h; cases h; exact f3.1 rfl, by have := f3.2.1; simp only at this ⊢; omega⟩
    have hw3 : CallsOK env w3 := by
      have := hw2.run (fireAll ncb (.afterIteration (A.pop r.1) (A.fit r.1) r.2.1 r.2.2)); rwa [h3] at this
    rw [h3] at f3
    simp only [Prog.run_next] at f3 ⊢
    obtain ⟨g', ⟨hi', hf', -⟩, hg'⟩ := f2.2.2 r rfl
    rw [hg'] at hi'
    refine ih r.1 r.2.1 r.2.2 _ (by simp only [nextIter]; rw [f3.2.2]; exact hi') hw3 hf' ?_ ?_
    · simp only [nextIter]; omega
    · simp only [nextIter]; omega

/-- C17: with `max_iters = m`, `run` ends, after at most `m` iterations: the model's bound on the number of loop rounds
is never hit if it is larger than `m`, and the iteration counter of the task ends at `m` at most. -/
theorem C17_terminates {H : Ctx X → Prop} {A : Alg X} {Good : X → Prop} {s : Bool} {K : Cost} {al : Prop}
    (hA : VerifiedIf H A Good s true K al) (env : Env X) {P : X → Prop} {sh : Prop} (hH : MetBy H env False P sh)
    (hE : NoFuelError env) (m : ℕ) (hm : env.maxIters = some m) (main : Bool) (ncb fuel : ℕ) (hfuel : m < fuel) (hG : ∀ x, Good x → P x := by intros; trivial)
    (hR : ∀ rng k x, P (env.repairFn rng k x) := by intros; trivial) :
    (A.exec env main ncb fuel).1 ≠ .error .outOfFuel ∧ (A.exec env main ncb fuel).2.st.iters ≤ m := by
  obtain ⟨Inv, hok⟩ := hA
  have hC := hok ⟨P, Held sh P (Possible env), True, False, False, fun _ => False, False, env.Repairs⟩ (hH _ (fun _ _ h => h) id rfl (fun _ _ h => h) fun hs => Held.other hs) hG
    (fun _ => trivial) nofun
  have fire : ∀ (e : Event X) (w : World X), ((fireAll ncb e).run env w).1 ≠ .error .outOfFuel ∧
      ((fireAll ncb e).run env w).2.st.iters = w.st.iters ∧ ((fireAll ncb e).run env w).2.st = w.st := fun e w => by
    have := run_quiet (Q := fun _ _ => True) (p := fireAll ncb e) (env := env) (w := w) (G := fun _ => True)
      (F := fun _ _ => True) (ent := True) (Ev := fun _ => True) (trk := False) (wp_fireAll (fun _ _ => trivial) trivial)
      (fun _ _ _ => trivial) (fun _ _ _ _ => trivial) hE
    exact ⟨this.1, this.2.1, fireAll_st env ncb e w⟩
  have hbody : (A.execBody env ncb fuel).1 ≠ .error .outOfFuel ∧ (A.execBody env ncb fuel).2.st.iters ≤ m := by
    simp only [Alg.execBody, Alg.body, Prog.bind_def, Prog.run_bind]
    have f1 := fire .beforeRun (World.init env.opt)
    rcases h1 : (fireAll ncb .beforeRun).run env (World.init env.opt) with ⟨e | u, w1⟩
    · rw [h1] at f1
      exact ⟨by intro h; cases h; exact f1.1 rfl, by have := f1.2.1; simp only [World.init, TaskSt.init] at this ⊢; omega⟩
    rw [h1] at f1
    simp only at f1 ⊢
    have hw1 : CallsOK env w1 := by
      have := (CallsOK.init env).run (fireAll ncb .beforeRun); rwa [h1] at this
    have f2 := run_quiet (w := w1) (env := env) (hC.init _ (by simp [f1.2.2, World.init, TaskSt.init]))
      hR (fun _ _ hg h => .of hg ((hw1.run _).possible h)) hE
    have hw2 := hw1.run A.init
    have hz : w1.st.iters = 0 := by rw [f1.2.1]; rfl
    rcases h2 : A.init.run env w1 with ⟨e | s0, w2⟩
    · rw [h2] at f2
      exact ⟨by intro h; cases h; exact f2.1 rfl, by have := f2.2.1; simp only at this ⊢; omega⟩
    rw [h2] at f2 hw2
    simp only at f2 hw2 ⊢
    obtain ⟨g', ⟨hi, hal, -⟩, hg'⟩ := f2.2.2 s0 rfl
    rw [hg'] at hi hal
    have hz2 : w2.st.iters = 0 := by omega
    rcases hb : getBest (A.pop s0) (A.fit s0) none .pinf with e | r
    · simp only [Prog.ofExcept, Prog.run_throw]
      refine ⟨fun he => ?_, by omega⟩
      cases he; exact getBest_no_oof _ _ _ _ hb
    simp only [Prog.ofExcept, Prog.run_pure]
    have f3 := loop_terminates hR hC hE m hm ncb fuel s0 r.1 r.2 w2 hi hw2
      (getBest_aligned (hal.imp fun _ _ h => h.1) (fun x hx => by cases hx) hb) (by omega) (by omega)
    rcases h3 : (A.loop ncb fuel s0 r.1 r.2).run env w2 with ⟨e | r', w3⟩
    · rw [h3] at f3
      exact ⟨f3.1, f3.2⟩
    rw [h3] at f3
    simp only at f3 ⊢
    have f4 := fire .afterRun w3
    rcases h4 : (fireAll ncb .afterRun).run env w3 with ⟨e | u, w4⟩
    · rw [h4] at f4
      exact ⟨by intro h; cases h; exact f4.1 rfl, by have := f4.2.1; simp only at this ⊢; omega⟩
    rw [h4] at f4
    exact ⟨by simp, by have := f4.2.1; simp only [Prog.pure_def, Prog.run_pure] at this ⊢; omega⟩
  rw [exec_eq]
  refine ⟨?_, hbody.2⟩
  simp only
  split
  · simp
  · rename_i e he
    split
    · intro h; cases h; exact hbody.1 he
    · simp

end NiaPy
