import Verif.Alg

/-!
# Helper lemmas about `get_best` and the generic correctness theorem for `Algorithm.run`
-/

namespace NiaPy
variable {X α : Type} {C : Ctx X} {g : Ghost X}

/-! ### `argmin`, `getBest` -/

theorem argminGo_spec (pre vs : List Fl) (cur : Fl) (ci : ℕ) (hc : pre[ci]? = some cur)
    (hnn : ∀ v ∈ pre ++ vs, v ≠ .nan) (hmin : ∀ v ∈ pre, cur ≤ v)
    (hfirst : ∀ j, j < ci → ∀ v, pre[j]? = some v → cur < v) :
    ∃ m, (pre ++ vs)[argminGo cur ci pre.length vs]? = some m ∧ (∀ v ∈ pre ++ vs, m ≤ v) ∧
      ∀ j, j < argminGo cur ci pre.length vs → ∀ v, (pre ++ vs)[j]? = some v → m < v := by
  induction vs generalizing pre cur ci with
  | nil => simp only [argminGo, List.append_nil] at *; exact ⟨cur, hc, hmin, hfirst⟩
  | cons v vs ih =>
    have hcm : cur ∈ pre := List.mem_of_getElem? hc
    have hcn : cur ≠ .nan := hnn cur (by simp [hcm])
    have hvn : v ≠ .nan := hnn v (by simp)
    have happ : pre ++ v :: vs = (pre ++ [v]) ++ vs := by simp
    have hlen : pre.length + 1 = (pre ++ [v]).length := by simp
    have hci : ci < pre.length := (List.getElem?_eq_some_iff.1 hc).1
    rw [argminGo, if_neg hcn]
    simp only [hvn, or_false]
    by_cases hlt : v < cur
    · rw [if_pos hlt, happ, hlen]
      refine ih (pre ++ [v]) v pre.length (by simp) (by simpa using hnn) ?_ ?_
      · intro u hu
        rcases List.mem_append.1 hu with h | h
        · exact Fl.le_of_lt (Fl.lt_of_lt_of_le hlt (hmin u h))
        · simp at h; subst h; exact Fl.le_refl hvn
      · intro j hj u hu
        rw [List.getElem?_append_left hj] at hu
        exact Fl.lt_of_lt_of_le hlt (hmin u (List.mem_of_getElem? hu))
    · rw [if_neg hlt, happ, hlen]
      refine ih (pre ++ [v]) cur ci ?_ (by simpa using hnn) ?_ ?_
      · rw [List.getElem?_append_left hci]; exact hc
      · intro u hu
        rcases List.mem_append.1 hu with h | h
        · exact hmin u h
        · simp at h; subst h; exact Fl.le_of_not_lt hvn hcn hlt
      · intro j hj u hu
        rw [List.getElem?_append_left (by omega)] at hu
        exact hfirst j hj u hu

/-- `argmin` of NaN-free values: the first position of the smallest value. -/
theorem argmin_spec (l : List Fl) (hne : l ≠ []) (hnn : ∀ v ∈ l, v ≠ .nan) :
    ∃ k m, argmin l = .ok k ∧ l[k]? = some m ∧ (∀ v ∈ l, m ≤ v) ∧
      ∀ j, j < k → ∀ v, l[j]? = some v → m < v := by
  cases l with
  | nil => exact absurd rfl hne
  | cons v vs =>
    have hvn : v ≠ .nan := hnn v (by simp)
    obtain ⟨m, h1, h2, h3⟩ := argminGo_spec [v] vs v 0 rfl (by simpa using hnn)
      (by intro u hu; simp at hu; subst hu; exact Fl.le_refl hvn) (by intro j hj; omega)
    exact ⟨_, m, rfl, h1, h2, h3⟩

/-- Whatever `getBest` returns is aligned. -/
theorem getBest_aligned {F : X → Fl → Prop} {pop : List X} {fit : List Fl} (h : List.Forall₂ F pop fit)
    {xb : Option X} {fxb : Fl} (hb : ∀ x, xb = some x → F x fxb) {r : X × Fl}
    (hr : getBest pop fit xb fxb = .ok r) : F r.1 r.2 := by
  unfold getBest at hr
  cases ha : argmin fit with
  | error e => rw [ha] at hr; cases hr
  | ok ib =>
    rw [ha] at hr
    simp only at hr
    cases hf : fit[ib]? with
    | none => rw [hf] at hr; cases hr
    | some f =>
      rw [hf] at hr
      simp only at hr
      split at hr
      · cases hp : pop[ib]? with
        | none => rw [hp] at hr; cases hr
        | some x =>
          rw [hp] at hr
          cases hr
          obtain ⟨h1, h2⟩ := List.getElem?_eq_some_iff.1 hp
          obtain ⟨h3, h4⟩ := List.getElem?_eq_some_iff.1 hf
          have := (List.forall₂_iff_get.1 h).2 ib h1 h3
          simp only [List.get_eq_getElem, h2, h4] at this
          exact this
      · cases xb with
        | none => cases hr
        | some x => cases hr; exact hb x rfl

/-- The fitness returned by `getBest` is at most every population fitness and the incumbent's (NaN-free values). -/
theorem getBest_le {pop : List X} {fit : List Fl} {xb : Option X} {fxb : Fl} {r : X × Fl}
    (hnn : ∀ v ∈ fit, v ≠ .nan) (hfxb : fxb ≠ .nan) (hr : getBest pop fit xb fxb = .ok r) :
    (∀ v ∈ fit, r.2 ≤ v) ∧ r.2 ≤ fxb := by
  have hne : fit ≠ [] := by rintro rfl; simp [getBest, argmin] at hr
  obtain ⟨k, m, h1, h2, h3, -⟩ := argmin_spec fit hne hnn
  have hm : m ≠ .nan := hnn m (List.mem_of_getElem? h2)
  unfold getBest at hr
  rw [h1] at hr
  simp only [h2] at hr
  split at hr
  · rename_i hle
    cases hp : pop[k]? with
    | none => rw [hp] at hr; cases hr
    | some x => rw [hp] at hr; cases hr; exact ⟨h3, hle⟩
  · rename_i hle
    cases xb with
    | none => cases hr
    | some x =>
      cases hr
      have := Fl.lt_of_not_le hm hfxb hle
      exact ⟨fun v hv => Fl.le_trans (Fl.le_of_lt this) (h3 v hv), Fl.le_refl hfxb⟩

theorem Forall₂.nn {F : X → Fl → Prop} (hF : ∀ x v, F x v → v ≠ .nan) {pop : List X} {fit : List Fl}
    (h : List.Forall₂ F pop fit) : ∀ v ∈ fit, v ≠ .nan := by
  induction h with
  | nil => simp
  | cons h1 _ ih =>
    intro v hv
    rcases List.mem_cons.1 hv with h | h
    · subst h; exact hF _ _ h1
    · exact ih v h

theorem getBest_no_oof (pop : List X) (fit : List Fl) (xb : Option X) (fxb : Fl) :
    getBest pop fit xb fxb ≠ .error .outOfFuel := by
  unfold getBest
  cases fit with
  | nil => simp [argmin]
  | cons v vs =>
    simp only [argmin]
    repeat' (split <;> try simp_all)

/-- Rule for `self.get_best` on an aligned population. -/
theorem wp_getBest {pop : List X} {fit : List Fl} {xb : X} {fxb : Fl} {Q : X × Fl → Ghost X → Prop}
    (h : List.Forall₂ C.F pop fit) (hb : C.F xb fxb)
    (hQ : ∀ r : X × Fl, C.F r.1 r.2 → (C.NN → (∀ v ∈ fit, r.2 ≤ v) ∧ r.2 ≤ fxb) → Q r g) :
    (Prog.getBest pop fit xb fxb).wp C Q g := by
  simp only [Prog.getBest, Prog.wp_ofExcept]
  refine ⟨fun r hr => ?_, fun h => absurd h (getBest_no_oof _ _ _ _)⟩
  refine hQ r (getBest_aligned h (fun x hx => by cases hx; exact hb) hr) fun hnn => ?_
  exact getBest_le (Forall₂.nn hnn h) (hnn _ _ hb) hr

theorem forall₂_ofFn {A B : Type} {n : ℕ} {R : A → B → Prop} {a : Fin n → A} {b : Fin n → B}
    (h : ∀ i, R (a i) (b i)) : List.Forall₂ R (List.ofFn a) (List.ofFn b) := by
  rw [List.forall₂_iff_get]
  refine ⟨by simp, fun i h1 h2 => ?_⟩
  simp only [List.get_eq_getElem, List.getElem_ofFn]
  exact h _

/-! ### The log agrees with the objective -/

/-- Entry `i` of the log is what the objective does when called for the `i`-th time. -/
theorem calls_obj (env : Env X) (p : Prog X α) (i : ℕ) (x : X) (r : Except PyErr Fl)
    (h : (p.run env (World.init env.opt)).2.calls[i]? = some (x, r)) : env.obj i x = r := by
  have key : (p.run env (World.init env.opt)).2.calls.length = (p.run env (World.init env.opt)).2.st.evals ∧
      ∀ i x r, (p.run env (World.init env.opt)).2.calls[i]? = some (x, r) → env.obj i x = r := by
    refine run_invariant env (fun w => w.calls.length = w.st.evals ∧
      ∀ (i : ℕ) x r, w.calls[i]? = some (x, r) → env.obj i x = r) ?_ p _ ⟨rfl, by simp [World.init]⟩
    rintro w o ⟨hl, h⟩
    rcases stepOp_cases env w o with ⟨hs, hc⟩ | ⟨hs, hc⟩ | ⟨y, -, hs, hc⟩
    · rw [hs, hc]; exact ⟨hl, h⟩
    · rw [hs, hc]; exact ⟨hl, h⟩
    · rw [hs, hc]
      have one : ∀ c : X × Except PyErr Fl, c = (y, env.obj w.st.evals y) → ∀ (i : ℕ) x r,
          (w.calls ++ [c])[i]? = some (x, r) → env.obj i x = r := by
        intro c hcc i x r hi
        by_cases hlt : i < w.calls.length
        · rw [List.getElem?_append_left hlt] at hi; exact h i x r hi
        · have hle : w.calls.length ≤ i := by omega
          rw [List.getElem?_append_right hle] at hi
          have hi0 : i - w.calls.length = 0 := by
            by_contra hne
            rw [List.getElem?_eq_none (by simp; omega)] at hi
            cases hi
          rw [hi0] at hi
          simp at hi
          rw [hcc] at hi
          have : i = w.st.evals := by omega
          cases hi; rw [this]
      rcases evalTask_cases env.toTaskCfg w.st y with ⟨_, he⟩ | ⟨_, e, ho, he⟩ | ⟨_, r, ho, he⟩
      · rw [he]; simpa using ⟨hl, h⟩
      · rw [he]; exact ⟨by simp [hl], one _ (by rw [ho])⟩
      · rw [he]; exact ⟨by simp [hl], one _ (by rw [ho])⟩
  exact key.2 i x r h

/-- Every entry of the log is something the objective did. -/
def CallsOK (env : Env X) (w : World X) : Prop := ∀ x r, (x, r) ∈ w.calls → ∃ k, env.obj k x = r

theorem CallsOK.init (env : Env X) : CallsOK env (World.init env.opt) := by simp [CallsOK, World.init]

theorem CallsOK.run {env : Env X} {w : World X} (h : CallsOK env w) (p : Prog X α) : CallsOK env (p.run env w).2 := by
  refine run_invariant env (CallsOK env) ?_ p w h
  intro w o h
  rcases stepOp_cases env w o with ⟨-, hc⟩ | ⟨-, hc⟩ | ⟨y, -, -, hc⟩
  · intro x r hx; rw [hc] at hx; exact h x r hx
  · intro x r hx; rw [hc] at hx; exact h x r hx
  · intro x r hx
    rw [hc] at hx
    rcases evalTask_cases env.toTaskCfg w.st y with ⟨_, he⟩ | ⟨_, e, ho, he⟩ | ⟨_, v, ho, he⟩
    · rw [he] at hx; exact h x r (by simpa using hx)
    · rw [he] at hx
      rcases List.mem_append.1 hx with hx | hx
      · exact h x r hx
      · simp at hx; obtain ⟨rfl, rfl⟩ := hx; exact ⟨_, ho⟩
    · rw [he] at hx
      rcases List.mem_append.1 hx with hx | hx
      · exact h x r hx
      · simp at hx; obtain ⟨rfl, rfl⟩ := hx; exact ⟨_, ho⟩

/-- `v` may be the fitness of `x`: the objective may return it (in the user's sign), or it is `+inf`, which `task.eval`
returns once the task has stopped. -/
def Possible (env : Env X) (x : X) (v : Fl) : Prop := v = .pinf ∨ ∃ k r, env.obj k x = .ok r ∧ v = env.opt.mul r

theorem CallsOK.possible {env : Env X} {w : World X} (h : CallsOK env w) {x : X} {v : Fl} (hf : FitOK env.opt w.calls x v) :
    Possible env x v := by
  rcases hf with rfl | ⟨r, hm, rfl⟩
  · exact Or.inl rfl
  · obtain ⟨k, hk⟩ := h x _ hm
    exact Or.inr ⟨k, r, hk, rfl⟩

/-- The objective never returns NaN. -/
def NoNaN (env : Env X) : Prop := ∀ k x r, env.obj k x = .ok r → r ≠ .nan

theorem mem_calls_obj (env : Env X) (p : Prog X α) (x : X) (r : Except PyErr Fl)
    (h : (x, r) ∈ (p.run env (World.init env.opt)).2.calls) : ∃ k, env.obj k x = r := by
  obtain ⟨i, hi⟩ := List.mem_iff_getElem?.1 h
  exact ⟨i, calls_obj env p i x r hi⟩

theorem fitOK_nn (env : Env X) (hnn : NoNaN env) (p : Prog X α) (x : X) (v : Fl)
    (h : FitOK env.opt (p.run env (World.init env.opt)).2.calls x v) : v ≠ .nan := by
  rcases h with rfl | ⟨r, hm, rfl⟩
  · simp
  · obtain ⟨k, hk⟩ := mem_calls_obj env p x _ hm
    rw [ne_eq, OptType.mul_eq_nan]
    exact hnn k x r hk

/-! ### Callback logs -/

/-- What a callback is shown: the best fitness belongs to the best solution, and, if `al`, every fitness value to its
individual. -/
def EventAligned (F : X → Fl → Prop) (al : Prop) : Event X → Prop
  | .beforeRun => True
  | .afterRun => True
  | .beforeIteration pop fpop xb fxb => (al → List.Forall₂ F pop fpop) ∧ F xb fxb
  | .afterIteration pop fpop xb fxb => (al → List.Forall₂ F pop fpop) ∧ F xb fxb

theorem EventAligned.imp {F F' : X → Fl → Prop} {al : Prop} (hF : ∀ x v, F x v → F' x v) {e : Event X} (h : EventAligned F al e) :
    EventAligned F' al e := by
  cases e with
  | beforeRun => trivial
  | afterRun => trivial
  | beforeIteration pop fpop xb fxb => exact ⟨fun ha => (h.1 ha).imp hF, hF _ _ h.2⟩
  | afterIteration pop fpop xb fxb => exact ⟨fun ha => (h.1 ha).imp hF, hF _ _ h.2⟩

/-- What a callback is shown: the best fitness is at least as good as that of every individual of the population. -/
def EventDom : Event X → Prop
  | .beforeRun => True
  | .afterRun => True
  | .beforeIteration _ fpop _ fxb => ∀ u ∈ fpop, fxb ≤ u
  | .afterIteration _ fpop _ fxb => ∀ u ∈ fpop, fxb ≤ u

/-- The best fitness a callback is shown. -/
def Event.best : Event X → Option Fl
  | .beforeRun => none
  | .afterRun => none
  | .beforeIteration _ _ _ fxb => some fxb
  | .afterIteration _ _ _ fxb => some fxb

/-- What may happen in round `p` of callback invocations: round 0 is `before_run`, then `before_iteration` and
`after_iteration` alternate, `after_run` comes instead of a `before_iteration`. -/
def PhaseOK (p : ℕ) : Event X → Prop
  | .beforeRun => p = 0
  | .beforeIteration .. => p % 2 = 1
  | .afterIteration .. => p % 2 = 0 ∧ 0 < p
  | .afterRun => p % 2 = 1

/-- A good log of callback invocations for `ncb` callbacks. -/
structure LogOK (F : X → Fl → Prop) (al NN : Prop) (ncb : ℕ) (log : List (ℕ × Event X)) : Prop where
  /-- population and fitness values shown belong together -/
  aligned : ∀ e ∈ log, EventAligned F al e.2
  /-- the best fitness shown is at least as good as the population shown -/
  dom : NN → al → ∀ e ∈ log, EventDom e.2
  /-- the best fitness shown never gets worse -/
  mono : NN → log.Pairwise fun a b => ∀ u v, a.2.best = some u → b.2.best = some v → v ≤ u
  /-- in each round the callbacks are called in the order of the list, and the rounds are as they should -/
  order : ∀ n i e, log[n]? = some (i, e) → i = n % ncb ∧ PhaseOK (n / ncb) e
  /-- in one round all callbacks are shown the same -/
  same : ∀ n m i j e e', log[n]? = some (i, e) → log[m]? = some (j, e') → n / ncb = m / ncb → e = e'
  /-- nothing happens after the `after_run` round -/
  last : ∀ n i, log[n]? = some (i, .afterRun) → log.length ≤ (n / ncb + 1) * ncb

theorem LogOK.nil {F : X → Fl → Prop} {al NN : Prop} {ncb : ℕ} : LogOK F al NN ncb [] :=
  ⟨by simp, by simp, by simp, by simp, by simp, by simp⟩

theorem LogOK.imp {F F' : X → Fl → Prop} {al NN : Prop} {ncb : ℕ} {log : List (ℕ × Event X)} (hF : ∀ x v, F x v → F' x v)
    (h : LogOK F al NN ncb log) : LogOK F' al NN ncb log :=
  ⟨fun e he => (h.aligned e he).imp hF, h.dom, h.mono, h.order, h.same, h.last⟩

theorem LogOK.round {F : X → Fl → Prop} {al NN : Prop} {ncb p k : ℕ} {L : List (ℕ × Event X)} {e : Event X}
    (h : LogOK F al NN ncb L) (hl : L.length = p * ncb) (ha : EventAligned F al e) (hd : NN → al → EventDom e) (hp : PhaseOK p e)
    (hm : NN → ∀ a ∈ L, ∀ u v, a.2.best = some u → e.best = some v → v ≤ u) (hv : NN → ∀ v, e.best = some v → v ≤ v)
    (hr : ∀ a ∈ L, ¬ ∃ i, a = (i, .afterRun)) (hk : k ≤ ncb) :
    LogOK F al NN ncb (L ++ (List.range k).map (·, e)) := by
  have key : ∀ n i e', (L ++ (List.range k).map (·, e))[n]? = some (i, e') →
      (n < L.length ∧ L[n]? = some (i, e')) ∨ (n = p * ncb + i ∧ i < ncb ∧ e' = e ∧ n / ncb = p ∧ n % ncb = i) := by
    intro n i e' hn
    by_cases hlt : n < L.length
    · left; rw [List.getElem?_append_left hlt] at hn; exact ⟨hlt, hn⟩
    · right
      rw [List.getElem?_append_right (by omega)] at hn
      simp only [List.getElem?_map, Option.map_eq_some_iff, Prod.mk.injEq] at hn
      obtain ⟨a, ha, rfl, rfl⟩ := hn
      have h1 := List.getElem?_eq_some_iff.1 ha
      simp only [List.length_range, List.getElem_range] at h1
      obtain ⟨h1, h2⟩ := h1
      have h3 : a < ncb := by omega
      have hn : n = p * ncb + a := by omega
      refine ⟨hn, h3, rfl, ?_, ?_⟩
      · rw [hn, Nat.mul_comm, Nat.mul_add_div (by omega), Nat.div_eq_of_lt h3]; rfl
      · rw [hn, Nat.mul_comm, Nat.mul_add_mod, Nat.mod_eq_of_lt h3]
  have hdiv : ∀ n, n < L.length → n / ncb < p := fun n hn => by
    refine Nat.div_lt_of_lt_mul ?_
    rw [Nat.mul_comm]; omega
  refine ⟨?_, ?_, ?_, ?_, ?_, ?_⟩
  · intro a ha'
    rcases List.mem_append.1 ha' with h1 | h1
    · exact h.aligned a h1
    · simp only [List.mem_map] at h1; obtain ⟨i, -, rfl⟩ := h1; exact ha
  · intro hn hal a ha'
    rcases List.mem_append.1 ha' with h1 | h1
    · exact h.dom hn hal a h1
    · simp only [List.mem_map] at h1; obtain ⟨i, -, rfl⟩ := h1; exact hd hn hal
  · intro hn
    rw [List.pairwise_append]
    refine ⟨h.mono hn, ?_, ?_⟩
    · rw [List.pairwise_map]
      refine List.Pairwise.imp (R := fun _ _ => True) ?_ (by simp [List.pairwise_iff_getElem])
      intro a b _ u v hu hv'
      rw [hu] at hv'; cases hv'; exact hv hn _ hu
    · intro a ha' b hb u v hu hv'
      simp only [List.mem_map] at hb; obtain ⟨i, -, rfl⟩ := hb; exact hm hn a ha' u v hu hv'
  · intro n i e' hn
    rcases key n i e' hn with ⟨_, h1⟩ | ⟨_, _, rfl, h2, h3⟩
    · exact h.order n i e' h1
    · exact ⟨h3.symm, by rw [h2]; exact hp⟩
  · intro n m i j e1 e2 hn hm' heq
    rcases key n i e1 hn with ⟨l1, h1⟩ | ⟨_, _, rfl, h2, h3⟩ <;> rcases key m j e2 hm' with ⟨l1', h1'⟩ | ⟨_, _, rfl, h2', h3'⟩
    · exact h.same n m i j e1 e2 h1 h1' heq
    · have := hdiv n l1; omega
    · have := hdiv m l1'; omega
    · rfl
  · intro n i hn
    rcases key n i _ hn with ⟨l1, h1⟩ | ⟨_, _, _, h2, h3⟩
    · exact absurd ⟨i, rfl⟩ (hr _ (List.mem_of_getElem? h1))
    · rw [h2]; simp [hl]; rw [Nat.add_mul]; omega

/-! ### Generic correctness -/

/-- How often an algorithm calls `task.eval`: exactly `init` times in `init_population`, at least `lo` and at most `hi` times
(if given) per iteration. -/
structure Cost where
  init : ℕ
  lo : ℕ
  hi : Option ℕ

/-- Number of calls before and after an iteration. -/
def Cost.Ok (K : Cost) (c c' : ℕ) : Prop := c + K.lo ≤ c' ∧ ∀ h, K.hi = some h → c' ≤ c + h

/-- Exactly `n` evaluations per iteration. -/
abbrev Cost.exact (init n : ℕ) : Cost := ⟨init, n, some n⟩

theorem Cost.ok_exact {i n c c' : ℕ} (h : c' = c + n) : (Cost.exact i n).Ok c c' := by
  refine ⟨by simp [h], fun k hk => ?_⟩
  cases hk; omega

/-- Obligations of an algorithm. `Inv s b` is an invariant of its state `s` when `b` is the best value so far. Under it,
population and fitness are aligned and no fitness value is better than `b`. `init_population` establishes it, with a
population that contains the best value; `run_iteration` preserves it, and the incumbent has the best value so far. The
number of evaluations is as stated by `K`. -/
structure AlgOK (A : Alg X) (C : Ctx X) (K : Cost) (Inv : A.σ → Fl → Prop) : Prop where
  aligned : ∀ s b, Inv s b → List.Forall₂ (C.Fit b) (A.pop s) (A.fit s)
  init : ∀ g, g.b = .pinf → A.init.wp C (fun s g' => Inv s g'.b ∧ Cov C (· ∈ A.fit s) g' ∧ g'.c = g.c + K.init) g
  iter : ∀ s xb fxb g, Inv s g.b → C.F xb fxb → (C.NN → fxb = g.b) →
    (A.iter s xb fxb).wp C (fun r g' => Inv r.1 g'.b ∧ C.F r.2.1 r.2.2 ∧ (C.NN → r.2.2 = g'.b) ∧ K.Ok g.c g'.c) g

/-- The same with population and fitness aligned after `init_population`, but later only if `al`: there are algorithms that
move an individual without evaluating it again. -/
structure AlgOKW (A : Alg X) (C : Ctx X) (K : Cost) (al : Prop) (Inv : A.σ → Fl → Prop) : Prop where
  aligned : al → ∀ s b, Inv s b → List.Forall₂ (C.Fit b) (A.pop s) (A.fit s)
  init : ∀ g, g.b = .pinf → A.init.wp C (fun s g' => Inv s g'.b ∧ List.Forall₂ (C.Fit g'.b) (A.pop s) (A.fit s) ∧
    Cov C (· ∈ A.fit s) g' ∧ g'.c = g.c + K.init) g
  iter : ∀ s xb fxb g, Inv s g.b → C.F xb fxb → (C.NN → fxb = g.b) →
    (A.iter s xb fxb).wp C (fun r g' => Inv r.1 g'.b ∧ C.F r.2.1 r.2.2 ∧ (C.NN → r.2.2 = g'.b) ∧ K.Ok g.c g'.c) g

theorem AlgOK.toW {A : Alg X} {K : Cost} {Inv : A.σ → Fl → Prop} (h : AlgOK A C K Inv) : AlgOKW A C K True Inv :=
  ⟨fun _ => h.aligned, fun g hg => Prog.wp_mono (fun s g' hs => ⟨hs.1, h.aligned s _ hs.1, hs.2.1, hs.2.2⟩) (h.init g hg), h.iter⟩

theorem Forall₂.right {F : X → Fl → Prop} {P : Fl → Prop} (hF : ∀ x v, F x v → P v) {pop : List X} {fit : List Fl}
    (h : List.Forall₂ F pop fit) : ∀ v ∈ fit, P v := by
  induction h with
  | nil => simp
  | cons h _ ih => intro v hv; rcases List.mem_cons.1 hv with rfl | hv; exacts [hF _ _ h, ih v hv]

/-- The same context, in which no callbacks may be fired. -/
def Ctx.quiet (C : Ctx X) : Ctx X := ⟨C.G, C.F, C.ent, C.next, C.oof, fun _ => False, C.trk, C.R⟩

theorem wp_fireAll {ncb : ℕ} {e : Event X} {Q : Unit → Ghost X → Prop}
    (h : ∀ k, k ≤ ncb → C.Ev (g.ev ++ (List.range k).map (·, e)))
    (hQ : Q () ⟨g.b, g.c, g.ev ++ (List.range ncb).map (·, e)⟩) :
    (fireAll ncb e).wp C Q g := by
  have key : ∀ m, m ≤ ncb → (forList (List.range' (ncb - m) m) (fun i _ => Prog.fire i e) ()).wp C Q
      ⟨g.b, g.c, g.ev ++ (List.range (ncb - m)).map (·, e)⟩ := by
    intro m
    induction m with
    | zero => intro _; exact hQ
    | succ m ih =>
      intro hm
      have hr : (List.range (ncb - m)) = List.range (ncb - (m + 1)) ++ [ncb - (m + 1)] := by
        rw [← List.range_succ]; congr 1; omega
      have hs : ncb - (m + 1) + 1 = ncb - m := by omega
      rw [List.range'_succ, forList, Prog.wp_bind, Prog.wp_fire, hs]
      have := ih (by omega)
      have h' := h (ncb - m) (by omega)
      rw [hr, List.map_append, ← List.append_assoc] at this h'
      exact ⟨h', this⟩
  have := key ncb (le_refl _)
  simp only [Nat.sub_self, List.range_zero, List.map_nil, List.append_nil] at this
  rw [fireAll, List.range_eq_range']
  exact this

/-- Loop invariant about the log. -/
structure LogAt (C : Ctx X) (al : Prop) (ncb p : ℕ) (fxb : Fl) (L : List (ℕ × Event X)) : Prop where
  ok : LogOK C.F al C.NN ncb L
  len : L.length = p * ncb
  le : C.NN → ∀ a ∈ L, ∀ u, a.2.best = some u → fxb ≤ u
  notLast : ∀ a ∈ L, ¬ ∃ i, a = (i, .afterRun)

theorem LogAt.mono {al : Prop} {ncb p : ℕ} {f f' : Fl} {L : List (ℕ × Event X)} (h : LogAt C al ncb p f L) (hf : C.NN → f' ≤ f) :
    LogAt C al ncb p f' L :=
  ⟨h.ok, h.len, fun hn a ha u hu => Fl.le_trans (hf hn) (h.le hn a ha u hu), h.notLast⟩

theorem LogAt.step {al : Prop} {ncb p : ℕ} {f : Fl} {L : List (ℕ × Event X)} (h : LogAt C al ncb p f L) {e : Event X} {x : X}
    (hfx : C.F x f) (he : e.best = none ∨ e.best = some f) (ha : EventAligned C.F al e) (hd : C.NN → al → EventDom e)
    (hp : PhaseOK p e) :
    (∀ k, k ≤ ncb → LogOK C.F al C.NN ncb (L ++ (List.range k).map (·, e))) ∧
    (e ≠ .afterRun → LogAt C al ncb (p + 1) f (L ++ (List.range ncb).map (·, e))) := by
  have hk : ∀ k, k ≤ ncb → LogOK C.F al C.NN ncb (L ++ (List.range k).map (·, e)) := fun k hk => by
    refine h.ok.round h.len ha hd hp (fun hn a hal u v hu hv => ?_) (fun hn v hv => ?_) h.notLast hk
    · rcases he with he | he
      · rw [he] at hv; cases hv
      · rw [he] at hv; cases hv; exact h.le hn a hal u hu
    · rcases he with he | he
      · rw [he] at hv; cases hv
      · rw [he] at hv; cases hv; exact Fl.le_refl (hn _ _ hfx)
  refine ⟨hk, fun hne => ⟨hk ncb (le_refl _), ?_, ?_, ?_⟩⟩
  · simp [h.len, Nat.add_mul]
  · intro hn a ha' u hu
    rcases List.mem_append.1 ha' with h1 | h1
    · exact h.le hn a h1 u hu
    · simp only [List.mem_map] at h1
      obtain ⟨i, -, rfl⟩ := h1
      rcases he with he | he
      · simp only at hu; rw [he] at hu; cases hu
      · simp only at hu; rw [he] at hu; cases hu; exact Fl.le_refl (hn _ _ hfx)
  · intro a ha'
    rcases List.mem_append.1 ha' with h1 | h1
    · exact h.notLast a h1
    · simp only [List.mem_map] at h1
      obtain ⟨i, -, rfl⟩ := h1
      rintro ⟨j, hj⟩; cases hj; exact hne rfl

theorem AlgOKW.loop {al : Prop} {A : Alg X} {Inv : A.σ → Fl → Prop} {ncb : ℕ} {K : Cost} (h : AlgOKW A C.quiet K al Inv)
    (hev : ∀ L, LogOK C.F al C.NN ncb L → C.Ev L) (hn : C.next) (ho : C.oof) (fuel p : ℕ) (hp : p % 2 = 1)
    (s : A.σ) (xb : X) (fxb : Fl) (hi : Inv s g.b) (hf : C.F xb fxb) (hc : C.NN → fxb = g.b)
    (hbn : g.b ≠ .nan) (hl : LogAt C al ncb p fxb g.ev) :
    (A.loop ncb fuel s xb fxb).wp C (fun r g' => Inv r.1 g'.b ∧ C.F r.2.1 r.2.2 ∧ (C.NN → r.2.2 = g'.b) ∧
      ∃ p', p' % 2 = 1 ∧ LogAt C al ncb p' r.2.2 g'.ev) g := by
  induction fuel generalizing s xb fxb g p with
  | zero => exact fun _ => ho
  | succ fuel ih =>
    simp only [Alg.loop, Prog.wp_bind', Prog.wp_look]
    intro v
    rw [wp_ite]
    refine ⟨fun _ => ⟨hi, hf, hc, p, hp, hl⟩, fun _ => ?_⟩
    simp only [Prog.wp_bind']
    obtain ⟨hk, hl'⟩ := hl.step (e := .beforeIteration (A.pop s) (A.fit s) xb fxb) hf (Or.inr rfl)
      ⟨fun hal => (h.aligned hal _ _ hi).imp fun _ _ h => h.1, hf⟩
      (fun hnn hal => (by rw [hc hnn]; exact Forall₂.right (fun _ _ h => h.2 hnn hbn) (h.aligned hal _ _ hi))) hp
    replace hl' := hl' nofun
    refine wp_fireAll (fun k hk' => hev _ (hk k hk')) ?_
    refine Prog.wp_mono (fun r g' hr => ?_) (Prog.wp_noEv (Prog.wp_below (h.iter s xb fxb _ hi hf hc)))
    obtain ⟨⟨⟨hi', hf', hc', _⟩, hbel⟩, hge⟩ := hr
    have hble := hbel.le hbn
    have hbn' := hbel.ne_nan hbn
    replace hl' := hl'.mono (f' := r.2.2) fun hnn => (by rw [hc hnn, hc' hnn]; exact hble)
    simp only at hge
    rw [← hge] at hl'
    obtain ⟨hk2, hl2⟩ := hl'.step (e := .afterIteration (A.pop r.1) (A.fit r.1) r.2.1 r.2.2) hf' (Or.inr rfl)
      ⟨fun hal => (h.aligned hal _ _ hi').imp fun _ _ h => h.1, hf'⟩
      (fun hnn hal => (by rw [hc' hnn]; exact Forall₂.right (fun _ _ h => h.2 hnn hbn') (h.aligned hal _ _ hi')))
      ⟨by omega, by omega⟩
    replace hl2 := hl2 nofun
    refine wp_fireAll (fun k hk' => hev _ (hk2 k hk')) ?_
    simp only [Prog.wp_next]
    exact ⟨hn, ih (p + 2) (by omega) _ _ _ hi' hf' hc' hbn' hl2⟩

theorem AlgOKW.body {al : Prop} {A : Alg X} {Inv : A.σ → Fl → Prop} {ncb : ℕ} {K : Cost} (h : AlgOKW A C.quiet K al Inv)
    (hev : ∀ L, LogOK C.F al C.NN ncb L → C.Ev L) (hn : C.next) (ho : C.oof) (fuel : ℕ) (hg : g.b = .pinf)
    (hge : g.ev = []) :
    (A.body ncb fuel).wp C (fun r g' => Inv r.1 g'.b ∧ C.F r.2.1 r.2.2 ∧ (C.NN → r.2.2 = g'.b) ∧
      LogOK C.F al C.NN ncb g'.ev) g := by
  simp only [Alg.body, Prog.wp_bind']
  have h0 : ∀ k, k ≤ ncb → LogOK C.F al C.NN ncb ([] ++ (List.range k).map (·, Event.beforeRun)) := fun k hk =>
    LogOK.nil.round (p := 0) (by simp) trivial (fun _ _ => trivial) rfl (by simp) nofun (by simp) hk
  refine wp_fireAll (e := .beforeRun) (fun k hk => hev _ (by rw [hge]; exact h0 k hk)) ?_
  refine Prog.wp_mono (fun s g1 hs => ?_) (Prog.wp_noEv (Prog.wp_below (h.init _ hg)))
  obtain ⟨⟨⟨hi, hal, hc, _⟩, hbel⟩, hge1⟩ := hs
  have hbn : g1.b ≠ .nan := hbel.ne_nan (by simp [hg])
  simp only [Prog.wp_ofExcept]
  refine ⟨fun r hr => ?_, fun h => absurd h (getBest_no_oof _ _ _ _)⟩
  have hf : C.Fit g1.b r.1 r.2 := getBest_aligned hal (fun x hx => by cases hx) hr
  have hcov : C.NN → r.2 = g1.b := fun hnn => by
    refine Fl.le_antisymm ?_ (hf.2 hnn hbn)
    rcases hc hnn with h0 | ⟨u, hu, hle⟩
    · rw [h0]; exact Fl.le_pinf (hnn _ _ hf.1)
    · exact Fl.le_trans ((getBest_le (Forall₂.nn hnn (hal.imp fun _ _ h => h.1)) (by simp) hr).1 u hu) hle
  have hlog : LogAt C al ncb 1 r.2 g1.ev := by
    rw [hge1]
    simp only [hge]
    refine ⟨h0 ncb (le_refl _), by simp, ?_, ?_⟩
    · intro _ a ha u hu
      simp only [List.nil_append, List.mem_map] at ha
      obtain ⟨i, -, rfl⟩ := ha
      cases hu
    · intro a ha
      simp only [List.nil_append, List.mem_map] at ha
      obtain ⟨i, -, rfl⟩ := ha
      rintro ⟨j, hj⟩; cases hj
  refine Prog.wp_mono (fun r' g2 hr' => ?_) (h.loop hev hn ho fuel 1 rfl s r.1 r.2 hi hf.1 hcov hbn hlog)
  obtain ⟨hi', hf', hc', p', hp', hl'⟩ := hr'
  obtain ⟨hk, -⟩ := hl'.step (e := .afterRun) hf' (Or.inl rfl) trivial (fun _ _ => trivial) hp'
  exact wp_fireAll (fun k hk' => hev _ (hk k hk')) ⟨hi', hf', hc', hk ncb (le_refl _)⟩

end NiaPy
