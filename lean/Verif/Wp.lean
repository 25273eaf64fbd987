import Verif.TaskProps

/-!
# A program logic for algorithms

`Prog.wp C Q g p` says: started with ghost state `g`, every execution of `p` evaluates only points satisfying `C.G`,
after each callback the log of callback events satisfies `C.Ev`, and if it ends normally with `a` in ghost state `g'` then `Q a g'`. Nothing in it mentions worlds:
random draws, task views and fitness values are arbitrary up to their guarantees. `C.F x v` stands for "`v` is a fitness
value that `task.eval` returned for `x`". The ghost state holds the best internal value so far and the number of calls
of `task.eval`. `wp_sound` ties the logic to the interpreter.
-/

namespace NiaPy
variable {X α β : Type}

/-- What is known about the surroundings of a program. -/
structure Ctx (X : Type) where
  /-- allowed points; repaired points are allowed -/
  G : X → Prop
  /-- `F x v`: `v` is a fitness value of `x` -/
  F : X → Fl → Prop
  /-- may the program call `task.repair` without a generator? -/
  ent : Prop
  /-- may the program call `task.next_iter`? -/
  next : Prop
  /-- may the program be cut off (`outOfFuel`)? -/
  oof : Prop
  /-- allowed logs of callback events -/
  Ev : List (ℕ × Event X) → Prop
  /-- is the program expected to keep the best value? -/
  trk : Prop
  /-- `R x y`: repairing `x` may give `y` -/
  R : X → X → Prop

/-- The best value is to be kept, and no fitness value is NaN. -/
structure NNof (trk : Prop) (F : X → Fl → Prop) : Prop where
  trk : trk
  nn : ∀ x v, F x v → v ≠ .nan

instance {trk : Prop} {F : X → Fl → Prop} : CoeFun (NNof trk F) fun _ => ∀ x v, F x v → v ≠ .nan := ⟨NNof.nn⟩

/-- Fitness values are never NaN, and the program is expected to keep the best one. -/
abbrev Ctx.NN (C : Ctx X) : Prop := NNof C.trk C.F

/-- Ghost state: best internal value so far, number of calls of `task.eval`, callback events so far. -/
structure Ghost (X : Type) where
  b : Fl
  c : ℕ
  ev : List (ℕ × Event X)

/-- Ghost state after an evaluation that returned `v`. -/
def Ghost.eval (g : Ghost X) (v : Fl) : Ghost X := ⟨if v < g.b then v else g.b, g.c + 1, g.ev⟩

/-- Ghost state after a callback. -/
def Ghost.fire (g : Ghost X) (i : ℕ) (e : Event X) : Ghost X := ⟨g.b, g.c, g.ev ++ [(i, e)]⟩

/-- Requirement and guarantee of one operation. -/
def opSpec (C : Ctx X) (g : Ghost X) : (o : Op X) → (Except PyErr o.Ret → Ghost X → Prop) → Prop
  | .eval x, K => C.G x ∧ (∀ v, C.F x v → K (.ok v) (g.eval v)) ∧
      ∀ e, (e = .outOfFuel → C.oof) → K (.error e) ⟨g.b, g.c + 1, g.ev⟩
  | .nextIter, K => C.next ∧ K (.ok ()) g
  | .look, K => ∀ v, K (.ok v) g
  | .repair s x, K => (s = true ∨ C.ent) ∧ ∀ y, C.G y → C.R x y → K (.ok y) g
  | .rand, K => ∀ r, Fl.fin 0 ≤ r → r ≤ Fl.belowOne → K (.ok r) g
  | .unif lo hi, K => (∀ e, unifErr lo hi = some e → K (.error e) g) ∧ ∀ r, (lo ≤ hi → lo ≤ r ∧ r ≤ hi) → K (.ok r) g
  | .dist d _ b, K => (∀ e, distErr d b = some e → K (.error e) g) ∧ ∀ r, K (.ok r) g
  | .int n, K => (n = 0 → K (.error .valueError) g) ∧ ∀ k, k < n → K (.ok k) g
  | .perm n, K => ∀ l : List ℕ, l.Perm (List.range n) → K (.ok l) g
  | .argsort fs, K => ∀ l : List ℕ, l.Perm (List.range fs.length) →
      (l.Pairwise fun i j => leNanLast (fs.getD i .nan) (fs.getD j .nan)) → K (.ok l) g
  | .fire i e, K => C.Ev (g.ev ++ [(i, e)]) ∧ K (.ok ()) (g.fire i e) ∧
      ∀ e', (e' = .outOfFuel → C.oof) → K (.error e') (g.fire i e)

/-- Weakest precondition. -/
def Prog.wp (C : Ctx X) : Prog X α → (α → Ghost X → Prop) → Ghost X → Prop
  | .pure a, Q, g => Q a g
  | .throw e, _, _ => e = .outOfFuel → C.oof
  | .op o k, Q, g => opSpec C g o fun r g' => (k r).wp C Q g'

namespace Prog
variable {C : Ctx X} {g : Ghost X}

@[simp] theorem wp_pure (a : α) (Q : α → Ghost X → Prop) : (Prog.pure a : Prog X α).wp C Q g ↔ Q a g := Iff.rfl
@[simp] theorem wp_pure' (a : α) (Q : α → Ghost X → Prop) : (Pure.pure a : Prog X α).wp C Q g ↔ Q a g := Iff.rfl
@[simp] theorem wp_throw (e : PyErr) (Q : α → Ghost X → Prop) : (Prog.throw e : Prog X α).wp C Q g ↔ (e = .outOfFuel → C.oof) := Iff.rfl

/-- Monotonicity of one operation. -/
theorem opSpec_mono (o : Op X) {K K' : Except PyErr o.Ret → Ghost X → Prop} (h : ∀ r g, K r g → K' r g)
    (hk : opSpec C g o K) : opSpec C g o K' := by
  cases o with
  | eval x => exact ⟨hk.1, fun v hv => h _ _ (hk.2.1 v hv), fun e he => h _ _ (hk.2.2 e he)⟩
  | nextIter => exact ⟨hk.1, h _ _ hk.2⟩
  | look => exact fun v => h _ _ (hk v)
  | repair s x => exact ⟨hk.1, fun y hy hr => h _ _ (hk.2 y hy hr)⟩
  | rand => exact fun r h1 h2 => h _ _ (hk r h1 h2)
  | unif lo hi => exact ⟨fun e he => h _ _ (hk.1 e he), fun r hr => h _ _ (hk.2 r hr)⟩
  | dist d a b => exact ⟨fun e he => h _ _ (hk.1 e he), fun r => h _ _ (hk.2 r)⟩
  | int n => exact ⟨fun h0 => h _ _ (hk.1 h0), fun k hk' => h _ _ (hk.2 k hk')⟩
  | perm n => exact fun l hl => h _ _ (hk l hl)
  | argsort fs => exact fun l hl hl' => h _ _ (hk l hl hl')
  | fire i e => exact ⟨hk.1, h _ _ hk.2.1, fun e he => h _ _ (hk.2.2 e he)⟩

theorem wp_mono {p : Prog X α} {Q Q' : α → Ghost X → Prop} (h : ∀ a g, Q a g → Q' a g) (hp : p.wp C Q g) :
    p.wp C Q' g := by
  induction p generalizing g with
  | pure a => exact h _ _ hp
  | throw e => exact hp
  | op o k ih => exact opSpec_mono o (fun r g' hk => ih r hk) hp

theorem wp_bind {p : Prog X α} {f : α → Prog X β} {Q : β → Ghost X → Prop} :
    (p.bind f).wp C Q g ↔ p.wp C (fun a g' => (f a).wp C Q g') g := by
  induction p generalizing g with
  | pure a => exact Iff.rfl
  | throw e => exact Iff.rfl
  | op o k ih =>
    exact ⟨opSpec_mono o (fun r g' h => ih r |>.1 h), opSpec_mono o (fun r g' h => ih r |>.2 h)⟩

@[simp] theorem wp_bind' {p : Prog X α} {f : α → Prog X β} {Q : β → Ghost X → Prop} :
    (p >>= f).wp C Q g ↔ p.wp C (fun a g' => (f a).wp C Q g') g := wp_bind

theorem wp_and {p : Prog X α} {Q Q' : α → Ghost X → Prop} (h : p.wp C Q g) (h' : p.wp C Q' g) :
    p.wp C (fun a g' => Q a g' ∧ Q' a g') g := by
  induction p generalizing g with
  | pure a => exact ⟨h, h'⟩
  | throw e => exact h
  | op o k ih =>
    cases o with
    | eval x =>
      exact ⟨h.1, fun v hv => ih _ (h.2.1 v hv) (h'.2.1 v hv), fun e he => ih _ (h.2.2 e he) (h'.2.2 e he)⟩
    | nextIter => exact ⟨h.1, ih _ h.2 h'.2⟩
    | look => exact fun v => ih _ (h v) (h' v)
    | repair s x => exact ⟨h.1, fun y hy hr => ih _ (h.2 y hy hr) (h'.2 y hy hr)⟩
    | rand => exact fun r h1 h2 => ih _ (h r h1 h2) (h' r h1 h2)
    | unif lo hi => exact ⟨fun e he => ih _ (h.1 e he) (h'.1 e he), fun r hr => ih _ (h.2 r hr) (h'.2 r hr)⟩
    | dist d a b => exact ⟨fun e he => ih _ (h.1 e he) (h'.1 e he), fun r => ih _ (h.2 r) (h'.2 r)⟩
    | int n => exact ⟨fun h0 => ih _ (h.1 h0) (h'.1 h0), fun k hk => ih _ (h.2 k hk) (h'.2 k hk)⟩
    | perm n => exact fun l hl => ih _ (h l hl) (h' l hl)
    | argsort fs => exact fun l hl hl' => ih _ (h l hl hl') (h' l hl hl')
    | fire i e => exact ⟨h.1, ih _ h.2.1 h'.2.1, fun e he => ih _ (h.2.2 e he) (h'.2.2 e he)⟩

/-- Rules for the single operations. -/
@[simp] theorem wp_eval (x : X) (Q : Fl → Ghost X → Prop) :
    (eval x).wp C Q g ↔ C.G x ∧ ∀ v, C.F x v → Q v (g.eval v) :=
  ⟨fun h => ⟨h.1, h.2.1⟩, fun h => ⟨h.1, h.2, fun _ he => he⟩⟩
@[simp] theorem wp_next (Q : Unit → Ghost X → Prop) : (next : Prog X Unit).wp C Q g ↔ C.next ∧ Q () g := Iff.rfl
@[simp] theorem wp_look (Q : TaskView → Ghost X → Prop) : (look : Prog X TaskView).wp C Q g ↔ ∀ v, Q v g := Iff.rfl
@[simp] theorem wp_repair (x : X) (s : Bool) (Q : X → Ghost X → Prop) :
    (repair x s).wp C Q g ↔ (s = true ∨ C.ent) ∧ ∀ y, C.G y → C.R x y → Q y g := Iff.rfl
@[simp] theorem wp_rand (Q : Fl → Ghost X → Prop) :
    (rand : Prog X Fl).wp C Q g ↔ ∀ r, Fl.fin 0 ≤ r → r ≤ Fl.belowOne → Q r g := Iff.rfl
@[simp] theorem wp_unif (lo hi : Fl) (Q : Fl → Ghost X → Prop) :
    (unif lo hi : Prog X Fl).wp C Q g ↔ ∀ r, (lo ≤ hi → lo ≤ r ∧ r ≤ hi) → Q r g :=
  ⟨fun h => h.2, fun h => ⟨fun _ he (e0 : _ = PyErr.outOfFuel) => (unifErr_ne lo hi (e0 ▸ he)).elim, h⟩⟩
@[simp] theorem wp_norm (a b : Fl) (Q : Fl → Ghost X → Prop) : (norm a b : Prog X Fl).wp C Q g ↔ ∀ r, Q r g :=
  ⟨fun h => h.2, fun h => ⟨fun _ he (e0 : _ = PyErr.outOfFuel) => (distErr_ne .normal b (e0 ▸ he)).elim, h⟩⟩
@[simp] theorem wp_dist (d : Dist) (a b : Fl) (Q : Fl → Ghost X → Prop) :
    (dist d a b : Prog X Fl).wp C Q g ↔ ∀ r, Q r g :=
  ⟨fun h => h.2, fun h => ⟨fun _ he (e0 : _ = PyErr.outOfFuel) => (distErr_ne d b (e0 ▸ he)).elim, h⟩⟩
@[simp] theorem wp_int (n : ℕ) (Q : ℕ → Ghost X → Prop) : (int n : Prog X ℕ).wp C Q g ↔ ∀ k, k < n → Q k g :=
  ⟨fun h => h.2, fun h => ⟨fun _ => (nofun : PyErr.valueError = .outOfFuel → C.oof), h⟩⟩
@[simp] theorem wp_perm (n : ℕ) (Q : List ℕ → Ghost X → Prop) :
    (perm n : Prog X (List ℕ)).wp C Q g ↔ ∀ l : List ℕ, l.Perm (List.range n) → Q l g := Iff.rfl
@[simp] theorem wp_argsort (fs : List Fl) (Q : List ℕ → Ghost X → Prop) :
    (argsort fs : Prog X (List ℕ)).wp C Q g ↔ ∀ l : List ℕ, l.Perm (List.range fs.length) →
      (l.Pairwise fun i j => leNanLast (fs.getD i .nan) (fs.getD j .nan)) → Q l g := Iff.rfl

@[simp] theorem wp_fire (i : ℕ) (e : Event X) (Q : Unit → Ghost X → Prop) :
    (fire i e).wp C Q g ↔ C.Ev (g.ev ++ [(i, e)]) ∧ Q () (g.fire i e) :=
  ⟨fun h => ⟨h.1, h.2.1⟩, fun h => ⟨h.1, h.2, fun _ he => he⟩⟩

theorem wp_tryCatch {p : Prog X α} {h : PyErr → Prog X α} {Q : α → Ghost X → Prop} (hp : p.wp C Q g)
    (hh : ∀ e g, (e = .outOfFuel → C.oof) → (h e).wp C Q g) : (p.tryCatch h).wp C Q g := by
  induction p generalizing g with
  | pure a => exact hp
  | throw e => exact hh e g hp
  | op o k ih => exact opSpec_mono o (fun r g' hk => ih r hk) hp

@[simp] theorem wp_ofExcept (r : Except PyErr α) (Q : α → Ghost X → Prop) :
    (ofExcept r : Prog X α).wp C Q g ↔ (∀ a, r = .ok a → Q a g) ∧ (r = .error .outOfFuel → C.oof) := by
  cases r <;> simp [ofExcept]

end Prog

/-! ### Soundness -/

/-- `v` is a value `task.eval x` can have returned, given the log of objective calls: `+inf` (the task had stopped) or
the internal value of a logged call. -/
def FitOK (opt : OptType) (calls : List (X × Except PyErr Fl)) (x : X) (v : Fl) : Prop :=
  v = .pinf ∨ ∃ r, (x, Except.ok r) ∈ calls ∧ v = opt.mul r

theorem FitOK.mono {opt : OptType} {l l' : List (X × Except PyErr Fl)} (h : l <+: l') {x : X} {v : Fl}
    (hf : FitOK opt l x v) : FitOK opt l' x v := by
  rcases hf with h0 | ⟨r, hm, hr⟩
  · exact Or.inl h0
  · exact Or.inr ⟨r, h.subset hm, hr⟩

/-- Repairing `x` gives `y`, for some state of the generator. -/
def Env.Repairs (env : Env X) (x y : X) : Prop := ∃ rng k, y = env.repairFn rng k x

/-- The environment fits the context: repaired points are allowed and repair is as stated. -/
def RepairOK (C : Ctx X) (env : Env X) : Prop := ∀ rng k x, C.G (env.repairFn rng k x) ∧ C.R x (env.repairFn rng k x)

theorem RepairOK.of {C : Ctx X} {env : Env X} (hG : ∀ rng k x, C.G (env.repairFn rng k x)) (hR : ∀ x y, env.Repairs x y → C.R x y) : RepairOK C env :=
  fun rng k x => ⟨hG rng k x, hR _ _ ⟨rng, k, rfl⟩⟩

/-- The log of calls only grows at its end. -/
theorem calls_prefix (env : Env X) (p : Prog X α) (w : World X) : w.calls <+: (p.run env w).2.calls := by
  refine run_relation env (fun a b => a.calls <+: b.calls) (fun _ => List.prefix_refl _)
    (fun _ _ _ => List.IsPrefix.trans) ?_ p w
  intro w o
  rcases stepOp_cases env w o with ⟨hs, hc⟩ | ⟨hs, hc⟩ | ⟨x, -, hs, hc⟩
  · exact ⟨[], by rw [List.append_nil, hc]⟩
  · exact ⟨[], by rw [List.append_nil, hc]⟩
  · exact ⟨_, hc.symm⟩

/-- What is proved of an execution: all new calls and events are allowed, the ghost state tracks the task. -/
structure Tracks (C : Ctx X) (env : Env X) (w w' : World X) (g g' : Ghost X) : Prop where
  good : ∀ c ∈ w'.calls, c ∈ w.calls ∨ C.G c.1
  events : w'.events = w.events ∨ C.Ev w'.events
  log : g.ev = w.events → g'.ev = w'.events
  best : g.b = env.opt.mul w.st.xf → g'.b = env.opt.mul w'.st.xf
  count_le : w'.st.evals + g.c ≤ w.st.evals + g'.c
  count_ge : g.c ≤ g'.c
  count_eq : stoppingCondition env.toTaskCfg w'.st = false → w'.st.evals + g.c = w.st.evals + g'.c
  iters : C.next ∨ w'.st.iters = w.st.iters

theorem Tracks.refl (C : Ctx X) (env : Env X) (w : World X) (g : Ghost X) : Tracks C env w w g g :=
  ⟨fun c hc => Or.inl hc, Or.inl rfl, id, id, by omega, by omega, fun _ => rfl, Or.inr rfl⟩

theorem Tracks.trans {C : Ctx X} {env : Env X} {w w' w'' : World X} {g g' g'' : Ghost X}
    (h : Tracks C env w w' g g') (h' : Tracks C env w' w'' g' g'')
    (hstop : stoppingCondition env.toTaskCfg w''.st = false → stoppingCondition env.toTaskCfg w'.st = false) :
    Tracks C env w w'' g g'' where
  good := fun c hc => by
    rcases h'.good c hc with h1 | h1
    · exact h.good c h1
    · exact Or.inr h1
  events := by
    rcases h'.events with h1 | h1
    · rw [h1]; exact h.events
    · exact Or.inr h1
  log := fun hl => h'.log (h.log hl)
  best := fun hb => h'.best (h.best hb)
  count_le := by have := h.count_le; have := h'.count_le; omega
  count_ge := by have := h.count_ge; have := h'.count_ge; omega
  count_eq := fun hs => by have := h'.count_eq hs; have := h.count_eq (hstop hs); omega
  iters := by
    rcases h.iters with h1 | h1
    · exact Or.inl h1
    · rcases h'.iters with h2 | h2
      · exact Or.inl h2
      · exact Or.inr (h2.trans h1)

theorem not_stopped_before (env : Env X) (p : Prog X α) (w : World X)
    (h : stoppingCondition env.toTaskCfg (p.run env w).2.st = false) : stoppingCondition env.toTaskCfg w.st = false := by
  by_contra hc
  rw [Bool.not_eq_false] at hc
  rw [(C02_stopped_stays env w hc p).1] at h
  cases h

/-- A step that does not touch the task state or logs. -/
theorem Tracks.silent {C : Ctx X} {env : Env X} {w w' : World X} {g : Ghost X} (hst : w'.st = w.st)
    (hc : w'.calls = w.calls) (he : w'.events = w.events) : Tracks C env w w' g g where
  good := fun c h => Or.inl (hc ▸ h)
  events := Or.inl he
  log := fun h => h.trans he.symm
  best := fun h => by rw [hst]; exact h
  count_le := by rw [hst]
  count_ge := le_refl _
  count_eq := fun _ => by rw [hst]
  iters := Or.inr (by rw [hst])

/-- User code (objective, callbacks) does not raise the model's own `outOfFuel`. -/
structure Clean (env : Env X) : Prop where
  obj : ∀ k x, env.obj k x ≠ .error .outOfFuel
  callback : ∀ i n e, env.callback i n e ≠ .error .outOfFuel

theorem opSpec_sound (C : Ctx X) (env : Env X) (hR : RepairOK C env) (hE : C.oof ∨ Clean env) (o : Op X)
    (K : Except PyErr o.Ret → Ghost X → Prop) (g : Ghost X) (w : World X) (h : opSpec C g o K)
    (hF : ∀ x v, C.G x → FitOK env.opt (stepOp env w o).2.calls x v → C.F x v) (hb : g.b = env.opt.mul w.st.xf) (hl : g.ev = w.events) :
    ∃ g', K (stepOp env w o).1 g' ∧ Tracks C env w (stepOp env w o).2 g g' := by
  cases o with
  | eval x =>
    obtain ⟨hG, hok, herr⟩ := h
    simp only [stepOp] at hF ⊢
    rcases evalTask_cases env.toTaskCfg w.st x with ⟨hs, he⟩ | ⟨hs, e, ho, he⟩ | ⟨hs, r, ho, he⟩
    · rw [he] at hF ⊢
      simp only [List.append_nil] at hF ⊢
      have heq : (g.eval .pinf).b = g.b := by simp [Ghost.eval]
      refine ⟨g.eval .pinf, hok _ (hF _ _ hG (Or.inl rfl)), fun c hc => Or.inl hc, Or.inl rfl, fun h => h,
        fun h => by rw [heq]; exact h, by simp [Ghost.eval], by simp [Ghost.eval], fun hn => ?_,
        Or.inr rfl⟩
      simp only [hs] at hn; cases hn
    · rw [he] at hF ⊢
      have he0 : e = .outOfFuel → C.oof := by
        rintro rfl
        exact hE.resolve_right fun h => h.obj _ _ ho
      refine ⟨_, herr e he0, fun c hc => ?_, Or.inl rfl, fun h => h, fun h => h, by simp +arith, by simp, fun _ => by simp +arith,
        Or.inr rfl⟩
      rcases List.mem_append.1 hc with h1 | h1
      · exact Or.inl h1
      · simp at h1; subst h1; exact Or.inr hG
    · rw [he] at hF ⊢
      have hmem : FitOK env.opt (w.calls ++ [(x, Except.ok r)]) x (env.opt.mul r) := Or.inr ⟨r, by simp, rfl⟩
      refine ⟨g.eval (env.opt.mul r), hok _ (hF _ _ hG hmem), fun c hc => ?_, Or.inl rfl, fun h => h, fun hb => ?_, ?_, ?_, fun _ => ?_,
        Or.inr (by simp)⟩
      · rcases List.mem_append.1 hc with h1 | h1
        · exact Or.inl h1
        · simp at h1; subst h1; exact Or.inr hG
      · simp only [Ghost.eval, hb, record]
        by_cases hlt : env.opt.mul r < env.opt.mul w.st.xf <;> simp [hlt]
      · simp [Ghost.eval]; omega
      · simp [Ghost.eval]
      · simp [Ghost.eval]; omega
  | nextIter =>
    exact ⟨g, h.2, fun c hc => Or.inl hc, Or.inl rfl, fun h => h, fun h => h, le_refl _, le_refl _, fun _ => rfl,
      Or.inl h.1⟩
  | look => exact ⟨g, h _, Tracks.silent rfl rfl rfl⟩
  | repair s x => cases s <;> exact ⟨g, h.2 _ (hR _ _ _).1 (hR _ _ _).2, Tracks.silent rfl rfl rfl⟩
  | rand => exact ⟨g, h _ (env.rng.rand_le _).1 (env.rng.rand_le _).2, Tracks.silent rfl rfl rfl⟩
  | unif lo hi =>
    simp only [stepOp]
    cases he : unifErr lo hi with
    | some e => exact ⟨g, h.1 e he, Tracks.silent rfl rfl rfl⟩
    | none => exact ⟨g, h.2 _ (env.rng.unif_mem _ _ lo hi), Tracks.silent rfl rfl rfl⟩
  | dist d a b =>
    simp only [stepOp]
    cases he : distErr d b with
    | some e => exact ⟨g, h.1 e he, Tracks.silent rfl rfl rfl⟩
    | none => exact ⟨g, h.2 _, Tracks.silent rfl rfl rfl⟩
  | int n =>
    simp only [stepOp]
    split
    · rename_i h0; exact ⟨g, h.1 h0, Tracks.silent rfl rfl rfl⟩
    · rename_i h0
      exact ⟨g, h.2 _ (env.rng.int_lt _ _ (Nat.pos_of_ne_zero h0)), Tracks.silent rfl rfl rfl⟩
  | perm n => exact ⟨g, h _ (env.rng.perm_perm _ _), Tracks.silent rfl rfl rfl⟩
  | argsort fs =>
    exact ⟨g, h _ (env.rng.argsort_perm _ _) (env.rng.argsort_sorted _ _), Tracks.silent rfl rfl rfl⟩
  | fire i e =>
    have hK : K (stepOp env w (.fire i e)).1 (g.fire i e) := by
      simp only [stepOp]
      cases hcb : env.callback i w.events.length e with
      | ok u => exact h.2.1
      | error e' =>
        refine h.2.2 e' ?_
        rintro rfl
        exact hE.resolve_right fun h => h.callback _ _ _ hcb
    refine ⟨_, hK, fun c hc => Or.inl hc, Or.inr ?_, fun h => ?_, fun h => h, le_refl _, le_refl _, fun _ => rfl,
      Or.inr rfl⟩
    · have := h.1; rw [hl] at this; exact this
    · simp only [Ghost.fire, stepOp, h]

/-- A program that may not fire callbacks leaves the log of events alone. -/
theorem Prog.wp_noEv {G F ent next oof Ev trk R} {p : Prog X α} {Q : α → Ghost X → Prop} {g : Ghost X}
    (h : p.wp ⟨G, F, ent, next, oof, fun _ => False, trk, R⟩ Q g) :
    p.wp ⟨G, F, ent, next, oof, Ev, trk, R⟩ (fun a g' => Q a g' ∧ g'.ev = g.ev) g := by
  induction p generalizing g with
  | pure a => exact ⟨h, rfl⟩
  | throw e => exact h
  | op o k ih =>
    cases o with
    | eval x => exact ⟨h.1, fun v hv => ih _ (h.2.1 v hv), fun e he => ih _ (h.2.2 e he)⟩
    | nextIter => exact ⟨h.1, ih _ h.2⟩
    | look => exact fun v => ih _ (h v)
    | repair s x => exact ⟨h.1, fun y hy hr => ih _ (h.2 y hy hr)⟩
    | rand => exact fun r h0 h1 => ih _ (h r h0 h1)
    | unif lo hi => exact ⟨fun e he => ih _ (h.1 e he), fun r hr => ih _ (h.2 r hr)⟩
    | dist d a b => exact ⟨fun e he => ih _ (h.1 e he), fun r => ih _ (h.2 r)⟩
    | int n => exact ⟨fun h0 => ih _ (h.1 h0), fun k hk => ih _ (h.2 k hk)⟩
    | perm n => exact fun l hl => ih _ (h l hl)
    | argsort fs => exact fun l hl hs => ih _ (h l hl hs)
    | fire i e => exact h.1.elim

/-- `b'` is `b` or better. -/
def Below (b' b : Fl) : Prop := b' = b ∨ b' ≤ b

theorem Below.refl (b : Fl) : Below b b := Or.inl rfl

theorem Below.trans {a b c : Fl} (h : Below a b) (h' : Below b c) : Below a c := by
  rcases h with rfl | h
  · exact h'
  · rcases h' with rfl | h'
    · exact Or.inr h
    · exact Or.inr (Fl.le_trans h h')

theorem Below.le {a b : Fl} (h : Below a b) (hb : b ≠ .nan) : a ≤ b := by
  rcases h with rfl | h
  · exact Fl.le_refl hb
  · exact h

theorem Below.ne_nan {a b : Fl} (h : Below a b) (hb : b ≠ .nan) : a ≠ .nan := Fl.ne_nan_of_le_left (h.le hb)

theorem Ghost.eval_below (g : Ghost X) (v : Fl) : Below (g.eval v).b g.b := by
  simp only [Ghost.eval]
  split
  · rename_i hlt; exact Or.inr (Fl.le_of_lt hlt)
  · exact Or.inl rfl

/-- The best value never gets worse. -/
theorem Prog.wp_below {C : Ctx X} {p : Prog X α} {Q : α → Ghost X → Prop} {g : Ghost X} (h : p.wp C Q g) :
    p.wp C (fun a g' => Q a g' ∧ Below g'.b g.b) g := by
  induction p generalizing g with
  | pure a => exact ⟨h, Below.refl _⟩
  | throw e => exact h
  | op o k ih =>
    cases o with
    | eval x =>
      refine ⟨h.1, fun v hv => ?_, fun e he => ih _ (g := ⟨g.b, g.c + 1, g.ev⟩) (h.2.2 e he)⟩
      exact Prog.wp_mono (fun a g' hg => ⟨hg.1, hg.2.trans (g.eval_below v)⟩) (ih _ (h.2.1 v hv))
    | nextIter => exact ⟨h.1, ih _ h.2⟩
    | look => exact fun v => ih _ (h v)
    | repair s x => exact ⟨h.1, fun y hy hr => ih _ (h.2 y hy hr)⟩
    | rand => exact fun r h0 h1 => ih _ (h r h0 h1)
    | unif lo hi => exact ⟨fun e he => ih _ (h.1 e he), fun r hr => ih _ (h.2 r hr)⟩
    | dist d a b => exact ⟨fun e he => ih _ (h.1 e he), fun r => ih _ (h.2 r)⟩
    | int n => exact ⟨fun h0 => ih _ (h.1 h0), fun k hk => ih _ (h.2 k hk)⟩
    | perm n => exact fun l hl => ih _ (h l hl)
    | argsort fs => exact fun l hl hs => ih _ (h l hl hs)
    | fire i e => exact ⟨h.1, ih _ (g := g.fire i e) h.2.1, fun e' he => ih _ (g := g.fire i e) (h.2.2 e' he)⟩

/-- `v` is a fitness value of `x`, and not better than the best value `b` so far. -/
def Ctx.Fit (C : Ctx X) (b : Fl) (x : X) (v : Fl) : Prop := C.F x v ∧ (C.NN → b ≠ .nan → b ≤ v)

theorem Ctx.Fit.mono {C : Ctx X} {b b' : Fl} {x : X} {v : Fl} (h : C.Fit b x v) (hb : Below b' b) : C.Fit b' x v :=
  ⟨h.1, fun hn hb' => by
    rcases hb with rfl | hb
    · exact h.2 hn hb'
    · exact Fl.le_trans hb (h.2 hn (Fl.ne_nan_of_le_right hb))⟩

theorem Ctx.Fit.eval {C : Ctx X} {g : Ghost X} {x : X} {v : Fl} (h : C.Fit g.b x v) (u : Fl) : C.Fit (g.eval u).b x v :=
  h.mono (g.eval_below u)

/-- A value just computed. -/
theorem Ctx.Fit.new {C : Ctx X} {g : Ghost X} {x : X} {v : Fl} (h : C.F x v) : C.Fit (g.eval v).b x v :=
  ⟨h, fun hn hb => by
    simp only [Ghost.eval] at hb ⊢
    split
    · exact Fl.le_refl (hn _ _ h)
    · rename_i hlt; rw [if_neg hlt] at hb; exact Fl.le_of_not_lt (hn _ _ h) hb hlt⟩

/-- **Soundness of the logic.** -/
theorem wp_sound (C : Ctx X) (env : Env X) (hR : RepairOK C env) (hE : C.oof ∨ Clean env) (p : Prog X α) (Q : α → Ghost X → Prop) (g : Ghost X)
    (w : World X) (h : p.wp C Q g) (hF : ∀ x v, C.G x → FitOK env.opt (p.run env w).2.calls x v → C.F x v)
    (hb : g.b = env.opt.mul w.st.xf) (hl : g.ev = w.events) :
    ∃ g', Tracks C env w (p.run env w).2 g g' ∧ (∀ a, (p.run env w).1 = .ok a → Q a g') ∧
      ((p.run env w).1 = .error .outOfFuel → C.oof) := by
  induction p generalizing g w with
  | pure a => exact ⟨g, Tracks.refl _ _ _ _, fun a' ha => by cases ha; exact h, nofun⟩
  | throw e => exact ⟨g, Tracks.refl _ _ _ _, nofun, fun ha => by cases ha; exact h rfl⟩
  | op o k ih =>
    simp only [Prog.run] at hF ⊢
    have hpre := calls_prefix env (k (stepOp env w o).1) (stepOp env w o).2
    obtain ⟨g1, hk, ht⟩ := opSpec_sound C env hR hE o _ g w h (fun x v hg hf => hF x v hg (hf.mono hpre)) hb hl
    obtain ⟨g2, ht2, hq⟩ := ih _ _ _ hk hF (ht.best hb) (ht.log hl)
    exact ⟨g2, ht.trans ht2 (not_stopped_before env _ _), hq⟩

end NiaPy
