import Verif.Runs
import Verif.PopTools

/-!
# Properties of single steps and of consecutive states
-/

namespace NiaPy
variable {X α : Type}

/-- A context in which everything is allowed: for properties that do not depend on what is evaluated. -/
def Ctx.any : Ctx X := ⟨fun _ => True, fun _ _ => True, True, True, True, fun _ => True, False, fun _ _ => True⟩

/-- What holds of everything a program may return holds of what it returns. -/
theorem Prog.wp_any_run {p : Prog X α} {P : α → Prop} (h : ∀ g, p.wp Ctx.any (fun a _ => P a) g) {env : Env X} {w w' : World X} {a : α}
    (hr : p.run env w = (.ok a, w')) : P a := by
  obtain ⟨g', -, h1, -⟩ := wp_sound Ctx.any env (fun _ _ _ => ⟨trivial, trivial⟩) (Or.inl trivial) p _ ⟨env.opt.mul w.st.xf, 0, w.events⟩ w (h _)
    (fun _ _ _ _ => trivial) rfl rfl
  exact h1 a (by rw [hr])

/-- Nothing is forbidden in `Ctx.any`. -/
theorem Prog.wp_any (p : Prog X α) {Q : α → Ghost X → Prop} (h : ∀ a g, Q a g) (g : Ghost X) : p.wp Ctx.any Q g := by
  induction p generalizing g with
  | pure a => exact h a g
  | throw e => exact fun _ => trivial
  | op o k ih =>
    cases o with
    | eval x => exact ⟨trivial, fun v _ => ih _ _, fun e _ => ih _ _⟩
    | nextIter => exact ⟨trivial, ih _ _⟩
    | look => exact fun v => ih _ _
    | repair s x => exact ⟨Or.inr trivial, fun y _ _ => ih _ _⟩
    | rand => exact fun r _ _ => ih _ _
    | unif lo hi => exact ⟨fun e _ => ih _ _, fun r _ => ih _ _⟩
    | dist d a b => exact ⟨fun e _ => ih _ _, fun r => ih _ _⟩
    | int n => exact ⟨fun _ => ih _ _, fun k _ => ih _ _⟩
    | perm n => exact fun l _ => ih _ _
    | argsort fs => exact fun l _ _ => ih _ _
    | fire i e => exact ⟨trivial, ih _ _, fun e _ => ih _ _⟩

theorem Yields.run {p : Prog X α} {P : α → Prop} (h : Yields Ctx.any p P) {env : Env X} {w w' : World X} {a : α}
    (hr : p.run env w = (.ok a, w')) : P a :=
  Prog.wp_any_run (fun _ => h.wp fun _ ha => ha) hr

/-- A relation between consecutive states at the head of the loop. -/
theorem Alg.Trace.chain {A : Alg X} {env : Env X} {ncb : ℕ} {hist : List (A.σ × X × Fl)} {w : World X} (ht : A.Trace env ncb hist w)
    {R : A.σ × X × Fl → A.σ × X × Fl → Prop} (h : ∀ r g, (A.iter r.1 r.2.1 r.2.2).wp Ctx.any (fun r' _ => R r' r) g) :
    hist.IsChain R := by
  induction ht with
  | start _ => exact .singleton _
  | round _ _ hr ih =>
    obtain ⟨w1, w2, h1, -⟩ := round_iter hr
    exact .cons_cons (Prog.wp_any_run (h _) h1) ih

/-- An invariant of the states at the head of the loop that does not depend on what is evaluated. -/
theorem Alg.Trace.states {A : Alg X} {env : Env X} {ncb : ℕ} {hist : List (A.σ × X × Fl)} {w : World X} (ht : A.Trace env ncb hist w)
    {P : A.σ → Prop} (h0 : ∀ g, A.init.wp Ctx.any (fun s _ => P s) g)
    (h : ∀ (r : A.σ × X × Fl) g, P r.1 → (A.iter r.1 r.2.1 r.2.2).wp Ctx.any (fun r' _ => P r'.1) g) :
    ∀ r ∈ hist, P r.1 := by
  induction ht with
  | @start r w hs =>
    intro r' hr'
    cases List.mem_singleton.1 hr'
    refine Prog.wp_any_run (p := A.start ncb) (P := fun r => P r.1) (fun g => ?_) hs
    simp only [Alg.start, Prog.wp_bind']
    refine Prog.wp_mono (fun _ g1 _ => ?_) (wp_fireAll_any ncb g)
    refine Prog.wp_mono (fun s g2 hs => ?_) (h0 g1)
    rw [Prog.wp_ofExcept]
    exact ⟨fun _ _ => hs, fun _ => trivial⟩
  | round _ _ hr ih =>
    obtain ⟨w1, w2, h1, -⟩ := round_iter hr
    intro r' hr'
    rcases List.mem_cons.1 hr' with rfl | hr'
    · exact Prog.wp_any_run (h _ · (ih _ (by simp))) h1
    · exact ih _ hr'
where
  wp_fireAll_any (ncb : ℕ) {e : Event X} (g : Ghost X) : (fireAll ncb e).wp Ctx.any (fun _ _ => True) g := by
    refine wp_forList (C := Ctx.any) (fun _ _ => True) trivial fun i hi s g' _ => ?_
    rw [Prog.wp_fire]
    exact ⟨trivial, trivial⟩

/-- One step of a record of the best value: the new value replaces the recorded one if it is smaller. -/
def Records (best cur best' : X × Fl) : Prop := (cur.2 < best.2 ∧ best' = cur) ∨ (¬ cur.2 < best.2 ∧ best' = best)

theorem Alg.Trace.ne_nil {A : Alg X} {env : Env X} {ncb : ℕ} {hist : List (A.σ × X × Fl)} {w : World X} (ht : A.Trace env ncb hist w) :
    hist ≠ [] := by
  cases ht <;> simp

/-- What holds of the states `init_population` returns holds of the first state. -/
theorem Alg.Trace.first {A : Alg X} {env : Env X} {ncb : ℕ} {hist : List (A.σ × X × Fl)} {w : World X} (ht : A.Trace env ncb hist w)
    {P : A.σ → Prop} (h0 : ∀ g, A.init.wp Ctx.any (fun s _ => P s) g) : ∀ r ∈ hist.getLast?, P r.1 := by
  induction ht with
  | @start r w hs =>
    intro r' hr'
    cases hr'
    obtain ⟨w1, h1, -⟩ := start_init hs
    exact Prog.wp_any_run h0 h1
  | round ht _ _ ih => rw [List.getLast?_cons_cons]; exact ih

/-- If every iteration updates some records, they are the best values so far. -/
theorem Alg.Trace.records {A : Alg X} {env : Env X} {ncb : ℕ} {r : A.σ × X × Fl} {hist : List (A.σ × X × Fl)} {w : World X}
    (ht : A.Trace env ncb (r :: hist) w) {ι : Type} (cur best : A.σ → ι → X × Fl) (h0 : ∀ g, A.init.wp Ctx.any (fun s _ => best s = cur s) g)
    (h : ∀ (r : A.σ × X × Fl) g, (A.iter r.1 r.2.1 r.2.2).wp Ctx.any (fun r' _ => ∀ i, Records (best r.1 i) (cur r'.1 i) (best r'.1 i)) g) (i : ι) :
    (∃ t ∈ r :: hist, best r.1 i = cur t.1 i) ∧ ∀ t ∈ r :: hist, ¬ (cur t.1 i).2 < (best r.1 i).2 := by
  have := Alg.Trace.inv (A := A) (C := Ctx.any) (.of (fun _ _ _ => trivial) fun _ _ _ => by first | trivial | assumption) trivial
    (fun hist _ => ∀ r ∈ hist.head?, (∃ t ∈ hist, best r.1 i = cur t.1 i) ∧ ∀ t ∈ hist, ¬ (cur t.1 i).2 < (best r.1 i).2) ?_ ?_ ht
    (fun _ _ _ => trivial)
  · exact this r rfl
  · intro g hg
    refine Prog.wp_mono (fun s g' hs b hb r hr => ?_) (h0 g)
    cases hr
    refine ⟨⟨_, List.mem_singleton_self _, by rw [hs]⟩, fun t ht => ?_⟩
    cases List.mem_singleton.1 ht
    rw [hs]
    exact Fl.lt_irrefl _
  · intro r hist g hJ
    refine Prog.wp_mono (fun r' g' hr a ha => ?_) (h r g)
    cases ha
    obtain ⟨⟨t, ht, e⟩, h2⟩ := hJ r rfl
    rcases hr i with ⟨h3, h4⟩ | ⟨h3, h4⟩
    · refine ⟨⟨r', List.mem_cons_self, h4⟩, fun t' ht' => ?_⟩
      rw [h4]
      rcases List.mem_cons.1 ht' with rfl | ht'
      · exact Fl.lt_irrefl _
      · exact fun hlt => h2 t' ht' (Fl.lt_trans hlt h3)
    · refine ⟨⟨t, List.mem_cons_of_mem _ ht, by rw [h4, e]⟩, fun t' ht' => ?_⟩
      rw [h4]
      rcases List.mem_cons.1 ht' with rfl | ht'
      · exact h3
      · exact h2 t' ht'

/-- A weaker step: the recorded value may get better, and the current value is not better than the recorded one. -/
def Lowers (best cur best' : X × Fl) : Prop := (best'.2 = best.2 ∨ best'.2 < best.2) ∧ ¬ cur.2 < best'.2

theorem Records.lowers {best cur best' : X × Fl} (h : Records best cur best') : Lowers best cur best' := by
  rcases h with ⟨h, rfl⟩ | ⟨h, rfl⟩
  · exact ⟨Or.inr h, Fl.lt_irrefl _⟩
  · exact ⟨Or.inl rfl, h⟩

/-- If every iteration may only improve some records, none of the values so far is better. -/
theorem Alg.Trace.lowers {A : Alg X} {env : Env X} {ncb : ℕ} {r : A.σ × X × Fl} {hist : List (A.σ × X × Fl)} {w : World X}
    (ht : A.Trace env ncb (r :: hist) w) {ι : Type} (cur best : A.σ → ι → X × Fl)
    (h0 : ∀ g, A.init.wp Ctx.any (fun s _ => ∀ i, ¬ (cur s i).2 < (best s i).2) g)
    (h : ∀ (r : A.σ × X × Fl) g, (∀ i, ¬ (cur r.1 i).2 < (best r.1 i).2) →
      (A.iter r.1 r.2.1 r.2.2).wp Ctx.any (fun r' _ => ∀ i, Lowers (best r.1 i) (cur r'.1 i) (best r'.1 i)) g) (i : ι) :
    ∀ t ∈ r :: hist, ¬ (cur t.1 i).2 < (best r.1 i).2 := by
  have := Alg.Trace.inv (A := A) (C := Ctx.any) (.of (fun _ _ _ => trivial) fun _ _ _ => by first | trivial | assumption) trivial
    (fun hist _ => ∀ r ∈ hist.head?, ∀ i, ∀ t ∈ hist, ¬ (cur t.1 i).2 < (best r.1 i).2) ?_ ?_ ht (fun _ _ _ => trivial)
  · exact this r rfl i
  · intro g hg
    refine Prog.wp_mono (fun s g' hs b hb r hr i t ht => ?_) (h0 g)
    cases hr
    cases List.mem_singleton.1 ht
    exact hs i
  · intro r hist g hJ
    have hJ' := hJ r rfl
    refine Prog.wp_mono (fun r' g' hr a ha i t ht => ?_) (h r g fun i => hJ' i r List.mem_cons_self)
    cases ha
    obtain ⟨h1, h2⟩ := hr i
    rcases List.mem_cons.1 ht with rfl | ht
    · exact h2
    · rcases h1 with h1 | h1
      · rw [h1]; exact hJ' i t ht
      · exact fun hlt => hJ' i t ht (Fl.lt_trans hlt h1)

/-- An invariant of the states at the head of the loop, in the context of the evaluations made. -/
theorem Alg.Trace.all {A : Alg X} {env : Env X} {ncb : ℕ} {hist : List (A.σ × X × Fl)} {w : World X} (ht : A.Trace env ncb hist w)
    {P : A.σ → Prop}
    (h0 : ∀ g, g.b = .pinf → A.init.wp (w.ctx env False) (fun s _ => P s ∧ List.Forall₂ (FitOK env.opt w.calls) (A.pop s) (A.fit s)) g)
    (h : ∀ (r : A.σ × X × Fl) g, P r.1 → FitOK env.opt w.calls r.2.1 r.2.2 →
      (A.iter r.1 r.2.1 r.2.2).wp (w.ctx env False) (fun r' _ => P r'.1 ∧ FitOK env.opt w.calls r'.2.1 r'.2.2) g) :
    ∀ r ∈ hist, P r.1 := by
  have := Alg.Trace.inv (A := A) (C := w.ctx env False) (.of (fun _ _ _ => trivial) fun _ _ _ => by first | trivial | assumption) trivial
    (fun hist _ => ∀ r ∈ hist, P r.1 ∧ FitOK env.opt w.calls r.2.1 r.2.2) ?_ ?_ ht (fun _ _ h => h)
  · exact fun r hr => (this r hr).1
  · intro g hg
    refine Prog.wp_mono (fun s g' hs b hb r hr => ?_) (h0 g hg)
    cases List.mem_singleton.1 hr
    exact ⟨hs.1, getBest_aligned hs.2 (fun x hx => by cases hx) hb⟩
  · intro r hist g hJ
    have hr := hJ r List.mem_cons_self
    refine Prog.wp_mono (fun r' g' hr' a ha => ?_) (h r g hr.1 hr.2)
    rcases List.mem_cons.1 ha with rfl | ha
    · exact hr'
    · exact hJ a ha

theorem World.fit_of {w : World X} {env : Env X} {x : X} {v b : Fl} (h : FitOK env.opt w.calls x v) : (w.ctx env False).Fit b x v :=
  ⟨h, fun hn => hn.trk.elim⟩

/-- With `max_evals = m`, an algorithm that evaluates something in every iteration makes at most `m` iterations. -/
theorem VerifiedIf.trace_budget {H : Ctx X → Prop} {A : Alg X} {Good : X → Prop} {s t : Bool} {K : Cost} {al : Prop}
    (hA : VerifiedIf H A Good s t K al) (hlo : 0 < K.lo) (env : Env X) {P : X → Prop} {sh : Prop} (hH : MetBy H env False P sh) {m : ℕ} (hm : env.maxEvals = some m) {ncb : ℕ}
    {hist : List (A.σ × X × Fl)} {w : World X} (h : A.Trace env ncb hist w) (hG : ∀ x, Good x → P x := by intros; trivial)
    (hR : ∀ rng k x, P (env.repairFn rng k x) := by intros; trivial) : hist.length ≤ m + 1 := by
  obtain ⟨Inv, hok⟩ := hA
  have hC := hok (env.ctx False P sh) (hH _ (fun _ _ h => h) id rfl (fun _ _ h => h) fun hs => Held.other hs) hG (fun _ => trivial) (fun _ => trivial)
  suffices hs : ∀ hist w, A.Trace env ncb hist w → hist.length ≤ m + 1 ∧
      (stoppingCondition env.toTaskCfg w.st = true ∨ hist.length ≤ w.st.evals + 1) ∧
      ∃ r hist', hist = r :: hist' ∧ Inv (env.ctx False P sh) r.1 (env.opt.mul w.st.xf) ∧ Held sh P (Possible env) r.2.1 r.2.2 from (hs _ _ h).1
  intro hist w h
  induction h with
  | start h =>
    obtain ⟨w1, h1, h2, h3, h4, h5⟩ := start_init h
    have hw1 : CallsOK env w1 := by simp [CallsOK, h3]
    have hb : env.opt.mul w1.st.xf = .pinf := by rw [h2]; simp [TaskSt.init]
    have := wp_sound (env.ctx False P sh) env (.of hR fun _ _ h => h) (Or.inl trivial) _ _ ⟨env.opt.mul w1.st.xf, 0, w1.events⟩ w1 (hC.init _ hb)
      (fun x v hg hf => .of hg ((hw1.run _).possible hf)) rfl rfl
    rw [h1] at this
    obtain ⟨g', ht, hq, -⟩ := this
    obtain ⟨hi, hal, -⟩ := hq _ rfl
    rw [ht.best rfl] at hi
    refine ⟨by simp, Or.inr (by simp), _, [], rfl, hi, ?_⟩
    exact getBest_aligned (hal.imp fun _ _ h => h.1) (fun x hx => by cases hx) h4
  | round hprev hs h ih =>
    obtain ⟨w1, w2, h1, h2, h3, h4, -⟩ := round_iter h
    have hw1 : CallsOK env w1 := by have := hprev.calls; unfold CallsOK at this ⊢; rwa [h3]
    obtain ⟨e1, e2, r0, hist', he, hi, hf⟩ := ih
    cases he
    rw [← h2] at hi
    have := wp_sound (env.ctx False P sh) env (.of hR fun _ _ h => h) (Or.inl trivial) _ _ ⟨env.opt.mul w1.st.xf, 0, w1.events⟩ w1
      (hC.iter _ _ _ _ hi hf fun hn => hn.trk.elim) (fun x v hg hf => .of hg ((hw1.run _).possible hf)) rfl rfl
    rw [h1] at this
    obtain ⟨g', ht, hq, -⟩ := this
    obtain ⟨hi', hf', -, hk⟩ := hq _ rfl
    rw [ht.best rfl] at hi'
    have e2 := e2.resolve_left (by simp [hs])
    have hlt : w1.st.evals < m := by
      rw [← h2] at hs
      simp only [stoppingCondition, hm, reached, Bool.or_eq_false_iff, decide_eq_false_iff_not] at hs
      omega
    rw [← h2] at e2
    simp only [List.length_cons] at e2 ⊢
    refine ⟨by omega, ?_, _, _, rfl, by rw [h4]; simpa [nextIter] using hi', hf'⟩
    rw [h4]
    by_cases hs2 : stoppingCondition env.toTaskCfg w2.st = true
    · have := (C02_stopped_stays env w2 hs2 (Prog.next : Prog X Unit)).1
      rw [Prog.run_next] at this
      exact Or.inl this
    · have h5 : w2.st.evals + 0 = w1.st.evals + g'.c := ht.count_eq (by simpa using hs2)
      have h6 : 0 + K.lo ≤ g'.c := hk.1
      exact Or.inr (by simp only [nextIter]; omega)

end NiaPy
