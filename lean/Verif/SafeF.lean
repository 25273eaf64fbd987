import Verif.SafeE
import Verif.Uncoupled
import Mathlib.Algebra.Order.Archimedean.Basic
import Mathlib.Algebra.BigOperators.Field

/-!
# Runs that do not raise: multiple trajectory search and its hybrids with differential evolution
-/

namespace NiaPy
variable [Arith] {D N : ℕ} {env : Env (Vec D)} {B : Box D}

/-! ### Programs that return -/

variable {X α β σ : Type} {envX : Env X}

/-- `p` returns in any state of the world, and what it returns satisfies `P`. -/
structure Sure (env : Env X) (p : Prog X α) (P : α → Prop) : Prop where
  out : ∀ w, ∃ a w', p.run env w = (.ok a, w') ∧ P a

namespace Sure
omit [Arith]

theorem mono {p : Prog X α} {P P' : α → Prop} (h : Sure envX p P) (hP : ∀ a, P a → P' a) : Sure envX p P' := ⟨fun w => by
  obtain ⟨a, w', h1, h2⟩ := h.out w
  exact ⟨a, w', h1, hP a h2⟩⟩

theorem pure' {a : α} {P : α → Prop} (h : P a) : Sure envX (Pure.pure a) P := ⟨fun w => ⟨a, w, rfl, h⟩⟩

theorem bind {p : Prog X α} {f : α → Prog X β} {P : α → Prop} {R : β → Prop} (hp : Sure envX p P)
    (hf : ∀ a, P a → Sure envX (f a) R) : Sure envX (p.bind f) R := ⟨fun w => by
  obtain ⟨a, w1, h1, h2⟩ := hp.out w
  obtain ⟨b, w2, h3, h4⟩ := (hf a h2).out w1
  exact ⟨b, w2, by rw [Prog.run_bind, h1]; exact h3, h4⟩⟩

theorem bind' {p : Prog X α} {f : α → Prog X β} {P : α → Prop} {R : β → Prop} (hp : Sure envX p P)
    (hf : ∀ a, P a → Sure envX (f a) R) : Sure envX (p >>= f) R := hp.bind hf

theorem ite {c : Prop} [Decidable c] {p q : Prog X α} {P : α → Prop} (hp : c → Sure envX p P) (hq : ¬ c → Sure envX q P) :
    Sure envX (if c then p else q) P := by
  split
  · exact hp ‹_›
  · exact hq ‹_›

/-- A program that raises nothing and, by the logic of `Wp`, is not cut off. -/
theorem of {p : Prog X α} {P : α → Prop} (hE : NoFuelError envX) (h : Total envX p P)
    (hw : ∀ (C : Ctx X) g, C.ent → p.wp C (fun _ _ => True) g) : Sure envX p P := ⟨fun w => by
  rcases h.out w with h | ⟨w', h⟩
  · exact h
  · have := (run_quiet (env := envX) (w := w) (G := fun _ => True) (F := fun _ _ => True) (ent := True) (Ev := fun _ => True) (trk := False) (hw _ _ trivial)
      (fun _ _ _ => trivial) (fun _ _ _ _ => trivial) hE).1
    rw [h] at this
    exact absurd rfl this⟩

theorem quiet {p : Prog X α} {P : α → Prop} (hE : NoFuelError envX) (h : Total envX p P) (hq : ∀ C, Quiet C p) : Sure envX p P :=
  of hE h fun C _ _ => (hq C).wp fun _ _ => trivial

theorem eval (hE : envX.Calm) {x : X} : Sure envX (Prog.eval x) fun v => v ≠ .nan := ⟨fun w => by
  rcases (Total.eval hE (x := x)).out w with h | ⟨w', h⟩
  · exact h
  · rw [Prog.run_eval] at h
    rcases evalTask_cases envX.toTaskCfg w.st x with ⟨-, h1⟩ | ⟨-, e, h2, h1⟩ | ⟨-, r, hr, h1⟩
    · rw [h1] at h; cases h
    · obtain ⟨r, hr, -⟩ := hE w.st.evals x
      rw [hr] at h2
      cases h2
    · rw [h1] at h; cases h⟩

theorem repair {x : X} {s : Bool} {P : X → Prop} (h : ∀ r k, P (envX.repairFn r k x)) : Sure envX (Prog.repair x s : Prog X X) P := ⟨fun w => by
  cases s
  · exact ⟨_, _, rfl, h _ _⟩
  · exact ⟨_, _, rfl, h _ _⟩⟩

theorem rand : Sure envX (Prog.rand : Prog X Fl) fun _ => True := ⟨fun _ => ⟨_, _, rfl, trivial⟩⟩

theorem unif {lo hi : Fl} (h : unifErr lo hi = none) : Sure envX (Prog.unif lo hi : Prog X Fl) fun r => lo ≤ r ∧ r ≤ hi := ⟨fun w => by
  simp only [Prog.unif, Prog.lift, Prog.run, stepOp, h]
  exact ⟨_, _, rfl, envX.rng.unif_mem _ _ _ _ (le_of_unifErr h)⟩⟩

theorem tabM {n : ℕ} {f : Fin n → Prog X α} {P : Fin n → α → Prop} (h : ∀ i, Sure envX (f i) (P i)) :
    Sure envX (NiaPy.tabM n f) fun r => ∀ i, P i (r i) := by
  induction n with
  | zero => exact pure' fun i => i.elim0
  | succ n ih =>
    refine bind (h 0) fun a ha => bind (ih fun i => h i.succ) fun r hr => pure' fun i => ?_
    refine Fin.cases ?_ (fun i => ?_) i
    · exact ha
    · exact hr i

theorem forFin {n : ℕ} {f : Fin n → σ → Prog X σ} {s : σ} (J : σ → Prop) (h0 : J s)
    (hstep : ∀ i s, J s → Sure envX (f i s) J) : Sure envX (NiaPy.forFin n f s) J := by
  induction n generalizing s with
  | zero => exact pure' h0
  | succ n ih => exact bind (hstep 0 s h0) fun s hs => ih hs fun i s => hstep i.succ s

theorem forList {γ : Type} {l : List γ} {f : γ → σ → Prog X σ} {s : σ} (J : σ → Prop) (h0 : J s)
    (hstep : ∀ i ∈ l, ∀ s, J s → Sure envX (f i s) J) : Sure envX (NiaPy.forList l f s) J := by
  induction l generalizing s with
  | nil => exact pure' h0
  | cons b l ih => exact bind (hstep b (by simp) s h0) fun s hs => ih hs fun i hi s => hstep i (by simp [hi]) s

theorem mapMAll {γ : Type} {l : List γ} {f : γ → Prog X α} {P : α → Prop} (h : ∀ b ∈ l, Sure envX (f b) P) :
    Sure envX (NiaPy.mapM' l f) fun r => (∀ x ∈ r, P x) ∧ r.length = l.length := by
  induction l with
  | nil => exact pure' ⟨fun _ h => by simp at h, rfl⟩
  | cons b l ih =>
    refine bind (h b (by simp)) fun a ha => bind (ih fun b hb => h b (by simp [hb])) fun r hr => pure' ⟨fun x hx => ?_, by simp [hr.2]⟩
    rcases List.mem_cons.1 hx with rfl | hx
    · exact ha
    · exact hr.1 x hx

theorem evalRows (hE : envX.Calm) {n : ℕ} (hn : 0 < n) {pop : Fin n → X} : Sure envX (NiaPy.evalRows pop) fun r => ∀ i, r i ≠ .nan := by
  unfold NiaPy.evalRows
  rw [if_neg (by omega)]
  exact tabM fun _ => eval hE

theorem fireAll (hc : envX.Polite) (ncb : ℕ) (e : Event X) : Sure envX (NiaPy.fireAll ncb e) fun _ => True :=
  forList (fun _ => True) trivial fun i _ _ _ => ⟨fun w => by
    rw [Prog.run_fire, hc]
    exact ⟨_, _, rfl, trivial⟩⟩

theorem ofExcept {r : Except PyErr α} {P : α → Prop} (h : ∃ a, r = .ok a ∧ P a) : Sure envX (Prog.ofExcept r) P := by
  obtain ⟨a, rfl, h⟩ := h
  exact pure' h

end Sure

/-- An algorithm whose initialization and iterations return. -/
def Alg.Sure (A : Alg X) (env : Env X) : Prop := ∃ Inv : A.σ → X → Prop,
  NiaPy.Sure env A.init (fun s => (∀ x ∈ A.pop s, Inv s x) ∧ A.fit s ≠ [] ∧ (A.pop s).length = (A.fit s).length ∧ ∀ v ∈ A.fit s, v ≠ .nan) ∧
  ∀ s xb fxb, Inv s xb → NiaPy.Sure env (A.iter s xb fxb) fun r => Inv r.1 r.2.1

omit [Arith] in
theorem iters_mono (env : Env X) (p : Prog X α) (w : World X) : w.st.iters ≤ (p.run env w).2.st.iters :=
  run_relation env (fun a b => a.st.iters ≤ b.st.iters) (fun _ => le_rfl) (fun _ _ _ => le_trans) (fun w o => by
    cases o <;> simp only [stepOp]
    case eval x =>
      rcases evalTask_cases env.toTaskCfg w.st x with ⟨-, h⟩ | ⟨-, e, -, h⟩ | ⟨-, r, -, h⟩
      · simp [h]
      · simp [h]
      · simp only [h, record]
        split <;> simp
    case repair s x => cases s <;> exact le_rfl
    all_goals first | exact le_rfl | (split <;> simp [nextIter]) | simp [nextIter]) p w

omit [Arith] in
/-- With `max_iters = m` such an algorithm returns a solution. -/
theorem Alg.Sure.exec {A : Alg X} (h : A.Sure envX) (hc : envX.Polite) (m : ℕ) (hm : envX.maxIters = some m) (main : Bool) (ncb fuel : ℕ)
    (hf : m < fuel) : ∃ res, (A.exec envX main ncb fuel).1 = .ok ⟨some res, none⟩ := by
  obtain ⟨Inv, h0, hi⟩ := h
  have hloop : ∀ fuel s xb fxb (w : World X), Inv s xb → 0 < fuel → m < w.st.iters + fuel →
      ∃ r w', (A.loop ncb fuel s xb fxb).run envX w = (.ok r, w') := by
    intro fuel
    induction fuel with
    | zero => exact fun _ _ _ _ _ h => absurd h (by omega)
    | succ fuel ih =>
      intro s xb fxb w hs _ hw
      simp only [Alg.loop, Prog.bind_def, Prog.run_bind, Prog.run_look]
      by_cases hst : stoppingCondition envX.toTaskCfg w.st = true
      · exact ⟨(s, xb, fxb), w, by simp only [hst, if_true]; rfl⟩
      have hlt : w.st.iters < m := by
        simp only [stoppingCondition, hm, reached, Bool.or_eq_true, decide_eq_true_eq, not_or] at hst
        omega
      simp only [hst]
      simp only [Bool.false_eq_true, if_false, Prog.run_bind]
      obtain ⟨_, w1, h1, -⟩ := (NiaPy.Sure.fireAll hc ncb (.beforeIteration (A.pop s) (A.fit s) xb fxb)).out w
      have m1 := iters_mono envX (fireAll ncb (.beforeIteration (A.pop s) (A.fit s) xb fxb)) w
      rw [h1] at m1 ⊢
      obtain ⟨r, w2, h2, hr⟩ := (hi s xb fxb hs).out w1
      have m2 := iters_mono envX (A.iter s xb fxb) w1
      simp only at m1 ⊢
      rw [h2] at m2 ⊢
      obtain ⟨_, w3, h3, -⟩ := (NiaPy.Sure.fireAll hc ncb (.afterIteration (A.pop r.1) (A.fit r.1) r.2.1 r.2.2)).out w2
      have m3 := iters_mono envX (fireAll ncb (.afterIteration (A.pop r.1) (A.fit r.1) r.2.1 r.2.2)) w2
      simp only at m2 ⊢
      rw [h3] at m3 ⊢
      simp only [Prog.run_next] at m3 ⊢
      exact ih _ _ _ _ hr (by omega) (by simp only [nextIter]; omega)
  have hbody : ∃ r, (A.execBody envX ncb fuel).1 = .ok r := by
    simp only [Alg.execBody, Alg.body, Prog.bind_def, Prog.run_bind]
    obtain ⟨_, w1, h1, -⟩ := (NiaPy.Sure.fireAll hc ncb .beforeRun).out (World.init envX.opt)
    rw [h1]
    obtain ⟨s, w2, h2, hs, k1, k2, k3⟩ := h0.out w1
    simp only
    rw [h2]
    obtain ⟨b, hb⟩ := getBest_first k1 k2 k3
    simp only [hb]
    obtain ⟨r, w3, h3⟩ := hloop fuel s b.1 b.2 w2 (hs _ (getBest_mem hb)) (by omega) (by omega)
    have e : (Prog.ofExcept (.ok b) : Prog X (X × Fl)).run envX w2 = (.ok b, w2) := rfl
    rw [e]
    simp only
    rw [h3]
    obtain ⟨_, w4, h4, -⟩ := (NiaPy.Sure.fireAll hc ncb .afterRun).out w3
    simp only
    rw [h4]
    exact ⟨r, rfl⟩
  obtain ⟨r, hr⟩ := hbody
  rw [exec_eq, hr]
  exact ⟨_, rfl⟩

namespace MTS

theorem ends_run (hE : env.Calm) (b1 b2 : Fl) (k : Search) (s : LS D) : Ends env (k.run B b1 b2 s) := by
  have hu : ∀ _ : Fin D, unifErr (Fl.fin (-1)) (Fl.fin 1) = none := fun _ => by decide
  cases k with
  | ls1 =>
    refine .forFin _ trivial fun i s _ => ?_
    unfold ls1Step ls1Second
    ends
  | ls1v1 =>
    refine .bindT (Total.unifVec hu).ends fun d => .forFin _ trivial fun i s _ => ?_
    unfold ls1v1Step ls1v1Second
    ends
  | ls2 =>
    refine .forFin _ trivial fun i s _ => ?_
    unfold ls2Step ls2Second
    ends
  | ls3 =>
    refine .bindT (.forFin _ trivial fun i s _ => ?_) fun _ => .pure' trivial
    unfold ls3Step
    ends
  | ls3v1 fuel =>
    have h : ∀ fuel disp s, Ends env (ls3v1Loop B b1 b2 fuel disp s) := by
      intro fuel
      induction fuel with
      | zero =>
        intro disp s
        unfold ls3v1Loop
        exact .ite (fun _ => .fuel) fun _ => .pure' trivial
      | succ fuel ih =>
        intro disp s
        unfold ls3v1Loop
        refine .ite (fun _ => .bindT (.tabMT fun _ => .bindT Total.permIdx.ends fun p => .bindT (Total.unifVec hu).ends fun u => .pure' trivial) fun rows =>
          .bindT .repairRows fun rows => .bindT (Total.evalRows hE (by norm_num)).ends fun fs => ih _ _) fun _ => .pure' trivial
    exact h _ _ _

/-- The local searches of a run: one to three of them. With four or more `grading_run` raises (`C71_mts_false`). -/
def Par.Fits (p : Par) : Prop := p.ls ≠ [] ∧ p.ls.length ≤ 3

theorem ends_improve (hE : env.Calm) {p : Par} (hp : p.Fits) (s : LS D) : Ends env (improve B p s) := by
  unfold improve grade
  refine .bindT (.forList _ trivial fun k hk s _ => .forFin _ trivial fun i s _ => .bindT (ends_run hE _ _ _ _) fun s => ?_) fun r => ?_
  · have : k.2 < p.ls.length := by
      obtain ⟨a, b⟩ := k
      simpa using (List.mem_zipIdx hk).2.1
    have := hp.2
    rw [if_neg (by omega)]
    exact .pure' trivial
  · cases h : p.ls.getLast? with
    | none => exact absurd (List.getLast?_eq_none_iff.1 h) hp.1
    | some k => exact .forFin _ trivial fun i s _ => .bindT (ends_run hE _ _ _ _) fun _ => .pure' trivial

/-- Multiple trajectory search. -/
theorem safe (hE : env.Calm) (hB : B.Proper) (hN : 0 < N) (p : Par) (hp : p.Fits) : (alg B N p).Safe env := by
  refine ⟨fun _ => True, .bind' (Total.defaultNumpyInit hE hB hN) fun r hr => .pure' ⟨trivial, first_arr hN hr⟩, fun s xb fxb _ => ?_⟩
  refine .bindT (.forFin _ trivial fun i a _ => .ite (fun _ => .bindT (ends_improve hE hp _) fun _ => .pure' trivial) fun _ => .pure' trivial) fun a =>
    .bindT (.forFin _ trivial fun i a _ => .bindT (ends_run hE _ _ .ls1 _) fun _ => .pure' trivial) fun b => .bindT Total.sortIdx.ends fun _ => .pure' trivial

/-! ### The searches return -/

/-- What the loop of `mts_ls3v1` needs: arithmetic is exact and a repair function returns a finite point for a finite one. -/
structure Tame (env : Env (Vec D)) : Prop where
  exact : SHADE.ExactArith
  rep : ∀ r k x, ASO.Finite x → ASO.Finite (env.repairFn r k x)

/-- What a local search needs in order to end: nothing, except for `mts_ls3v1`, whose loop goes on until the displacement is small in all
coordinates. Its displacement shrinks by a factor of `2 / 5` or more in each round, so `fuel` rounds are enough if it starts below
`(5 / 2) ^ fuel / 1000`. This needs points with finite coordinates, what `F` stands for, so `mts_ls3`, which computes with
differences of fitness values that may be infinite, is left out then. -/
def Search.Ready (B : Box D) (F : Prop) : Search → Prop
  | .ls3v1 fuel => F ∧ ∀ j l h, B.lo j = .fin l → B.hi j = .fin h → (h - l) / 10 * (2 / 5) ^ fuel ≤ 1 / 1000
  | .ls3 => ¬ F
  | _ => True

variable {F : Prop}

omit [Arith] in
theorem proper_fin (hB : B.Proper) (j : Fin D) : ∃ l h, B.lo j = .fin l ∧ B.hi j = .fin h := by
  have h := hB j
  revert h
  cases B.lo j <;> cases B.hi j <;> intro h <;> first | exact ⟨_, _, rfl, rfl⟩ | cases h

omit [Arith] in
theorem fin_between {l u : ℚ} {v : Fl} (h : .fin l ≤ v ∧ v ≤ .fin u) : ∃ q, v = .fin q := by
  revert h
  cases v with
  | fin q => exact fun _ => ⟨q, rfl⟩
  | nan => exact fun h2 => absurd h2.1 Bool.false_ne_true
  | pinf => exact fun h2 => absurd h2.2 Bool.false_ne_true
  | ninf => exact fun h2 => absurd h2.1 Bool.false_ne_true

omit [Arith] in
theorem finite_unif {x : Vec D} (hB : B.Proper) (h : ∀ i, B.lo i ≤ x i ∧ x i ≤ B.hi i) : ASO.Finite x := fun j => by
  obtain ⟨l, u, hl, hu⟩ := proper_fin hB j
  have h2 := h j
  rw [hl, hu] at h2
  exact fin_between h2

/-- A finite number. -/
def Fi (v : Fl) : Prop := ∃ q, v = .fin q

theorem Fi.add (hA : SHADE.ExactArith) {a b : Fl} (ha : Fi a) (hb : Fi b) : Fi (a + b) := by
  obtain ⟨p, rfl⟩ := ha; obtain ⟨q, rfl⟩ := hb; exact ⟨_, hA.add p q⟩
theorem Fi.sub (hA : SHADE.ExactArith) {a b : Fl} (ha : Fi a) (hb : Fi b) : Fi (a - b) := by
  obtain ⟨p, rfl⟩ := ha; obtain ⟨q, rfl⟩ := hb; exact ⟨_, hA.sub p q⟩
theorem Fi.mul (hA : SHADE.ExactArith) {a b : Fl} (ha : Fi a) (hb : Fi b) : Fi (a * b) := by
  obtain ⟨p, rfl⟩ := ha; obtain ⟨q, rfl⟩ := hb; exact ⟨_, hA.mul p q⟩
theorem Fi.half (hA : SHADE.ExactArith) {a : Fl} (ha : Fi a) {n : ℕ} (hn : n ≠ 0) : Fi (a / Fl.ofNat n) := by
  obtain ⟨p, rfl⟩ := ha; exact ⟨_, hA.div p n (by exact_mod_cast hn)⟩
omit [Arith] in
theorem Fi.lit (n d : ℕ) : Fi (NiaPy.lit n d) := ⟨_, rfl⟩

/-- The points and the search range of a local search are finite. -/
def Solid (F : Prop) (s : LS D) : Prop := F → ASO.Finite s.x ∧ ASO.Finite s.xb ∧ ASO.Finite s.sr

theorem Solid.record {s : LS D} (hs : Solid F s) {y : Vec D} (hy : F → ASO.Finite y) (f b1 : Fl) : Solid F (s.record y f b1) := fun hF => by
  unfold LS.record
  split
  · exact ⟨(hs hF).1, hy hF, (hs hF).2.2⟩
  · exact hs hF

omit [Arith] in
theorem Solid.move {s : LS D} (hs : Solid F s) {y : Vec D} (hy : F → ASO.Finite y) : Solid F { s with x := y } := fun hF => ⟨hy hF, (hs hF).2⟩

theorem Solid.accept {s : LS D} (hs : Solid F s) {y : Vec D} (hy : F → ASO.Finite y) (f b2 : Fl) : Solid F (s.accept y f b2) := fun hF => ⟨hy hF, (hs hF).2⟩

theorem Solid.start {s : LS D} (hs : Solid F s) (hR : F → Tame env) (hB : B.Proper) : Solid F (s.start B) := fun hF => by
  refine ⟨(hs hF).1, (hs hF).2.1, fun j => ?_⟩
  obtain ⟨l, u, hl, hu⟩ := proper_fin hB j
  have hA := (hR hF).exact
  unfold LS.start
  simp only
  split
  · exact (hs hF).2.2 j
  · simp only
    split
    · exact Fi.mul hA (.sub hA ⟨_, hu⟩ ⟨_, hl⟩) (.lit _ _)
    · exact Fi.half hA ((hs hF).2.2 j) (by norm_num)

omit [Arith] in
theorem finite_update {y : Vec D} (hy : F → ASO.Finite y) (i : Fin D) {v : Fl} (hv : F → Fi v) : F → ASO.Finite (Function.update y i v) := fun hF j => by
  by_cases e : j = i
  · subst e; rw [Function.update_self]; exact hv hF
  · rw [Function.update_of_ne e]; exact hy hF j

theorem sure_repair (hR : F → Tame env) {x : Vec D} (hx : F → ASO.Finite x) : Sure env (Prog.repair x) fun y => F → ASO.Finite y :=
  .repair fun r k hF => (hR hF).rep r k x (hx hF)

omit [Arith] in
theorem sure_rand : Sure env (Prog.rand : Prog (Vec D) Fl) Fi :=
  ⟨fun w => ⟨_, _, rfl, fin_between (l := 0) (u := 1) ⟨(env.rng.rand_mem w.rk).1, Fl.le_of_lt (env.rng.rand_mem w.rk).2⟩⟩⟩

omit [Arith] in
theorem sure_sign : Sure env (unifVec (fun _ => Fl.fin (-1)) (fun _ => Fl.fin 1) : Prog (Vec D) (Vec D)) ASO.Finite :=
  (Sure.tabM fun _ => .unif (by decide)).mono fun _ h j => fin_between (h j)

theorem sure_ls1Step (hE : env.Calm) (hR : F → Tame env) (b1 b2 : Fl) (i : Fin D) (s : LS D) (hs : Solid F s) : Sure env (ls1Step b1 b2 i s) (Solid F) := by
  have ho : F → Fi (s.x i) := fun hF => (hs hF).1 i
  unfold ls1Step
  refine .bind' (sure_repair hR (finite_update (fun hF => (hs hF).1) i fun hF => .sub (hR hF).exact (ho hF) ((hs hF).2.2 i))) fun y hy => .bind' (.eval hE) fun f _ => ?_
  have hr := hs.record hy f b1
  refine .ite (fun _ => .pure' (hr.move (finite_update hy i ho))) fun _ => .ite (fun _ => ?_) fun _ => .pure' (hr.accept hy _ _)
  unfold ls1Second
  refine .bind' (sure_repair hR (finite_update hy i fun hF => .add (hR hF).exact (ho hF) (.mul (hR hF).exact (.lit _ _) ((hr hF).2.2 i)))) fun y hy => .bind' (.eval hE) fun f _ => ?_
  have hr := hr.record hy f b1
  exact .ite (fun _ => .pure' (hr.move (finite_update hy i ho))) fun _ => .pure' (hr.accept hy _ _)

theorem sure_ls1v1Step (hE : env.Calm) (hR : F → Tame env) (b1 b2 : Fl) {d : Vec D} (hd : ASO.Finite d) (i : Fin D) (s : LS D) (hs : Solid F s) :
    Sure env (ls1v1Step b1 b2 d i s) (Solid F) := by
  have ho : F → Fi (s.x i) := fun hF => (hs hF).1 i
  unfold ls1v1Step
  refine .bind' (sure_repair hR (finite_update (fun hF => (hs hF).1) i fun hF => .sub (hR hF).exact (ho hF) (.mul (hR hF).exact ((hs hF).2.2 i) (hd i)))) fun y hy =>
    .bind' (.eval hE) fun f _ => ?_
  refine .ite (fun _ => .pure' ((hs.record hy f b1).move hy)) fun _ => .ite (fun _ => .pure' (hs.move (finite_update hy i ho))) fun _ => .ite (fun _ => ?_) fun _ =>
    .pure' (hs.accept hy _ _)
  unfold ls1v1Second
  refine .bind' (sure_repair hR (finite_update hy i fun hF => .add (hR hF).exact (ho hF) (.mul (hR hF).exact (.lit _ _) ((hs hF).2.2 i)))) fun y hy => .bind' (.eval hE) fun f _ => ?_
  exact .ite (fun _ => .pure' ((hs.record hy f b1).move hy)) fun _ => .ite (fun _ => .pure' (hs.move (finite_update hy i ho))) fun _ => .pure' (hs.accept hy _ _)

theorem sure_ls2Step (hE : env.Calm) (hc : env.Polite) (hR : F → Tame env) (b1 b2 : Fl) (s : LS D) (hs : Solid F s) : Sure env (ls2Step b1 b2 s) (Solid F) := by
  unfold ls2Step
  refine .bind' (.tabM (P := fun _ v => Fi v) fun _ => sure_rand) fun u hu => .bind' (.tabM (P := fun _ _ => True) fun _ =>
    .quiet (hE.noFuel hc) (Total.intFin (by norm_num)).ends fun C => Yields.intFin.quiet) fun r _ => ?_
  have hstep : F → ∀ j, Fi (s.sr j * (Fl.fin (-1) + u j * Fl.ofNat 2)) := fun hF j =>
    .mul (hR hF).exact ((hs hF).2.2 j) (.add (hR hF).exact ⟨_, rfl⟩ (.mul (hR hF).exact (hu j) ⟨_, rfl⟩))
  refine .bind' (sure_repair hR fun hF j => ?_) fun y hy => .bind' (.eval hE) fun f _ => ?_
  · split
    · exact Fi.sub (hR hF).exact ((hs hF).1 j) (hstep hF j)
    · exact (hs hF).1 j
  refine .ite (fun _ => .pure' (hs.record hy _ _)) fun _ => .ite (fun _ => .pure' hs) fun _ => .ite (fun _ => ?_) fun _ => .pure' (hs.accept hy _ _)
  unfold ls2Second
  refine .bind' (sure_repair hR fun hF j => ?_) fun y hy => .bind' (.eval hE) fun f _ => ?_
  · split
    · exact Fi.add (hR hF).exact ((hs hF).1 j) (hstep hF j)
    · exact (hs hF).1 j
  exact .ite (fun _ => .pure' (hs.record hy _ _)) fun _ => .ite (fun _ => .pure' (hs.accept hy _ _)) fun _ => .pure' hs

theorem sure_ls3Step (hE : env.Calm) (b1 b2 : Fl) (i : Fin D) (a : LS D × Vec D × Bool) : Sure env (ls3Step b1 b2 i a) fun _ => True := by
  obtain ⟨s, z, moved⟩ := a
  have hrep : ∀ {x : Vec D}, Sure env (Prog.repair x) fun _ => True := .repair fun _ _ => trivial
  unfold ls3Step
  exact .bind' hrep fun y1 _ => .bind' hrep fun y2 _ => .bind' hrep fun y3 _ => .bind' (.eval hE) fun f1 _ => .bind' (.eval hE) fun f2 _ =>
    .bind' (.eval hE) fun f3 _ => .bind' .rand fun ra _ => .bind' .rand fun rb _ => .bind' .rand fun rc _ => .bind' hrep fun y hy =>
    .bind' (.eval hE) fun f _ => .pure' trivial

open SHADE in
/-- The new displacement of `mts_ls3v1` (mts.py:310) is at most `2 / 5` of the old one. -/
theorem shrink (hA : ExactArith) {l h x d : ℚ} : ∃ d', ((fmin (.fin h) (.fin x + Fl.ofNat 2 * .fin d) - fmax (.fin l) (.fin x - Fl.ofNat 2 * .fin d)) / Fl.ofNat 10 : Fl) = .fin d' ∧
    d' ≤ d * (2 / 5) := by
  have e2 : Fl.ofNat 2 = .fin (2 : ℚ) := rfl
  have e10 : Fl.ofNat 10 = .fin (10 : ℚ) := rfl
  rw [e2, e10, hA.mul, hA.add, hA.sub]
  have hmin : ∃ a, fmin (.fin h) (.fin (x + 2 * d)) = .fin a ∧ a ≤ x + 2 * d := by
    unfold fmin
    rw [if_neg nofun, if_neg nofun]
    split
    · exact ⟨_, rfl, le_rfl⟩
    · rename_i hn
      exact ⟨_, rfl, by rw [Fl.fin_lt_fin] at hn; linarith⟩
  have hmax : ∃ b, fmax (.fin l) (.fin (x - 2 * d)) = .fin b ∧ x - 2 * d ≤ b := by
    unfold fmax
    rw [if_neg nofun, if_neg nofun]
    split
    · exact ⟨_, rfl, le_rfl⟩
    · rename_i hn
      exact ⟨_, rfl, by rw [Fl.fin_lt_fin] at hn; linarith⟩
  obtain ⟨a, ha, ha'⟩ := hmin
  obtain ⟨b, hb, hb'⟩ := hmax
  rw [ha, hb, hA.sub, hA.div _ _ (by norm_num)]
  exact ⟨_, rfl, by linarith⟩

open SHADE in
theorem sure_ls3v1Loop (hE : env.Calm) (hc : env.Polite) (hB : B.Proper) (hR : Tame env) (b1 b2 : Fl) (fuel : ℕ)
    (disp : Vec D) (s : LS D) (hs : Solid True s) (hd : ∀ j, ∃ d, disp j = .fin d ∧ d * (2 / 5) ^ fuel ≤ 1 / 1000) :
    Sure env (ls3v1Loop B b1 b2 fuel disp s) (Solid True) := by
  induction fuel generalizing disp s with
  | zero =>
    unfold ls3v1Loop
    rw [if_neg]
    · exact .pure' hs
    · simp only [List.any_eq_true, decide_eq_true_eq, not_exists, not_and]
      intro j _ hj
      obtain ⟨d, e, hd⟩ := hd j
      rw [e, lit, Fl.fin_lt_fin] at hj
      simp at hd hj
      linarith
  | succ fuel ih =>
    unfold ls3v1Loop
    have hA := hR.exact
    refine .ite (fun _ => ?_) fun _ => .pure' hs
    refine .bind' (.tabM (P := fun _ (y : Vec D) => ASO.Finite y) fun _ => .bind' (.quiet (hE.noFuel hc) Total.permIdx.ends fun C => Yields.permIdx.quiet) fun p _ =>
      .bind' sure_sign fun u hu => .pure' fun j => Fi.add hA ((hs trivial).1 _) (.mul hA ?_ (hu j))) fun rows hr => ?_
    · obtain ⟨d, e, -⟩ := hd j
      exact ⟨d, e⟩
    refine .bind' (.tabM (P := fun _ y => ASO.Finite y) fun i => .repair fun r k => hR.rep r k _ (hr i)) fun rows hr => .bind' (.evalRows hE (by norm_num)) fun fs _ => ?_
    have ht : Solid True (ls3v1Take b1 b2 (List.ofFn fun i => (rows i, fs i)) s) := fun _ => by
      have hin : ∀ {q : Vec D × Fl → Bool} {e}, pick ((List.ofFn fun i => (rows i, fs i)).filter q) = some e → ASO.Finite e.1 := fun he => by
        obtain ⟨i, hi⟩ := List.mem_ofFn.1 (List.mem_filter.1 (pick_some he).1).1
        rw [← hi]; exact hr i
      unfold ls3v1Take
      simp only
      split
      · exact ⟨hin ‹_›, hin ‹_›, (hs trivial).2.2⟩
      · split
        · exact ⟨hin ‹_›, (hs trivial).2⟩
        · exact hs trivial
    refine ih _ _ ht fun j => ?_
    obtain ⟨d, e, hd⟩ := hd j
    obtain ⟨x, hx⟩ := (ht trivial).1 j
    obtain ⟨l, h, hl, hh⟩ := proper_fin hB j
    rw [e, hx, hl, hh]
    obtain ⟨d', e', hd'⟩ := shrink hA (l := l) (h := h) (x := x) (d := d)
    refine ⟨d', e', ?_⟩
    have : (0 : ℚ) ≤ (2 / 5) ^ fuel := by positivity
    calc d' * (2 / 5) ^ fuel ≤ d * (2 / 5) * (2 / 5) ^ fuel := mul_le_mul_of_nonneg_right hd' this
      _ = d * (2 / 5) ^ (fuel + 1) := by ring
      _ ≤ _ := hd

theorem sure_run (hE : env.Calm) (hc : env.Polite) (hB : B.Proper) (hR : F → Tame env) (b1 b2 : Fl) {k : Search} (hk : k.Ready B F)
    (s : LS D) (hs : Solid F s) : Sure env (k.run B b1 b2 s) (Solid F) := by
  cases k with
  | ls1 => exact .forFin _ (hs.start hR hB) fun i s hs => sure_ls1Step hE hR b1 b2 i s hs
  | ls1v1 => exact .bind' sure_sign fun d hd => .forFin (Solid F) (hs.start hR hB) fun i s hs => sure_ls1v1Step hE hR b1 b2 hd i s hs
  | ls2 => exact .forFin _ (hs.start hR hB) fun i s hs => sure_ls2Step hE hc hR b1 b2 s hs
  | ls3 =>
    exact .bind' (.forFin (fun _ => True) trivial fun i a _ => sure_ls3Step hE b1 b2 i a) fun r _ => .pure' fun hF => absurd hF hk
  | ls3v1 fuel =>
    obtain ⟨hF, hd⟩ := hk
    refine Sure.mono (sure_ls3v1Loop hE hc hB (hR hF) b1 b2 fuel (fun j => (B.hi j - B.lo j) / Fl.ofNat 10) { s with grade := Fl.ofNat 0 } (fun _ => hs hF) fun j => ?_)
      fun t ht (_ : F) => ht trivial
    have hA := (hR hF).exact
    obtain ⟨l, h, hl, hh⟩ := proper_fin hB j
    exact ⟨(h - l) / 10, by rw [hl, hh, hA.sub, show Fl.ofNat 10 = .fin (10 : ℚ) from rfl, hA.div _ _ (by norm_num)], hd j l h hl hh⟩

theorem sure_improve (hE : env.Calm) (hc : env.Polite) (hB : B.Proper) (hR : F → Tame env) {p : Par} (hp : p.Fits)
    (hk : ∀ k ∈ p.ls, k.Ready B F) (s : LS D) (hs : Solid F s) : Sure env (improve B p s) (Solid F) := by
  unfold improve grade
  refine .bind' (.forList (Solid F) hs fun k hkm s hs => .forFin _ hs fun i s hs => .bind'
    (sure_run hE hc hB hR _ _ (hk _ (List.fst_mem_of_mem_zipIdx hkm)) _ hs) fun s hs => ?_) fun r hr => ?_
  · have : k.2 < p.ls.length := by
      obtain ⟨a, b⟩ := k
      simpa using (List.mem_zipIdx hkm).2.1
    have := hp.2
    rw [if_neg (by omega)]
    exact .pure' hs
  · cases h : p.ls.getLast? with
    | none => exact absurd (List.getLast?_eq_none_iff.1 h) hp.1
    | some k =>
      exact .forFin (Solid F) hr fun i s hs => .bind' (sure_run hE hc hB hR _ _ (hk _ (List.mem_of_getLast? h)) _ hs) fun t ht => .pure' ht

/-- Multiple trajectory search. -/
theorem sure (hE : env.Calm) (hc : env.Polite) (hB : B.Proper) (hN : 0 < N) (hR : F → Tame env) {p : Par} (hp : p.Fits)
    (hk : ∀ k ∈ p.ls, k.Ready B F) : (alg B N p).Sure env := by
  refine ⟨fun (s : St D N) xb => F → ASO.Finite xb ∧ ∀ i, ASO.Finite (s.pop i) ∧ ASO.Finite (s.sr i), ?_, fun s xb fxb hs => ?_⟩
  · refine .bind' (P := fun r : (Fin N → Vec D) × (Fin N → Fl) => (∀ i, ASO.Finite (r.1 i)) ∧ ∀ i, r.2 i ≠ .nan) ?_ fun r hr =>
      .pure' ⟨fun x hx hF => ⟨?_, fun i => ⟨hr.1 i, fun j => ?_⟩⟩, first_arr hN hr.2⟩
    · unfold defaultNumpyInit
      refine .bind' (.tabM (P := fun _ (x : Vec D) => ASO.Finite x) fun _ => (Sure.tabM fun i => .unif (hB i)).mono fun x hx => finite_unif hB hx) fun pop hpop => ?_
      rw [if_neg (by omega)]
      exact .bind' (.tabM fun i => .eval hE) fun fs hfs => .pure' ⟨hpop, hfs⟩
    · obtain ⟨i, rfl⟩ := List.mem_ofFn.1 hx
      exact hr.1 i
    · obtain ⟨l, u, hl, hu⟩ := proper_fin hB j
      exact Fi.half (hR hF).exact (.sub (hR hF).exact ⟨_, hu⟩ ⟨_, hl⟩) (by norm_num)
  · have hbest : ∀ {r : LS D}, Solid F r → F → ASO.Finite r.best := fun {r} hr hF => by
      unfold LS.best
      split
      · exact (hr hF).1
      · exact (hr hF).2.1
    have hup : ∀ {v : Fin N → Vec D} {i : Fin N} {y : Vec D} (j : Fin N), ASO.Finite (v j) → ASO.Finite y → ASO.Finite (Function.update v i y j) :=
      fun {v i y} j hv hy => by
        by_cases e : j = i
        · subst e; rw [Function.update_self]; exact hy
        · rw [Function.update_of_ne e]; exact hv
    refine .bind' (.forFin (fun a : St D N × Vec D × Fl => F → ASO.Finite a.2.1 ∧ ∀ i, ASO.Finite (a.1.pop i) ∧ ASO.Finite (a.1.sr i)) hs fun i a ha => ?_) fun a ha => ?_
    · refine .ite (fun _ => .bind' (sure_improve hE hc hB hR hp hk _ fun hF => ⟨((ha hF).2 i).1, (ha hF).1, ((ha hF).2 i).2⟩) fun r hr =>
        .pure' fun hF => ⟨hbest hr hF, fun j => ⟨hup j ((ha hF).2 j).1 (hr hF).1, hup j ((ha hF).2 j).2 (hr hF).2.2⟩⟩) fun _ => .pure' ha
    · refine .bind' (.forFin (fun a : Vec D × Fl => F → ASO.Finite a.1) (fun hF => (ha hF).1) fun i a ha => .bind' (P := Solid F) ?_ fun _ hr => .pure' (hbest hr)) fun b hb =>
        .bind' (.quiet (hE.noFuel hc) Total.sortIdx.ends fun C => Yields.sortIdx.quiet) fun _ _ => .pure' fun hF => ⟨hb hF, (ha hF).2⟩
      refine sure_run hE hc hB hR _ _ (k := .ls1) trivial _ fun hF => ⟨ha hF, ha hF, fun j => ?_⟩
      obtain ⟨l, u, hl, hu⟩ := proper_fin hB j
      exact Fi.half (hR hF).exact (.sub (hR hF).exact ⟨_, hu⟩ ⟨_, hl⟩) (by norm_num)

end MTS

namespace HDE

theorem total_turns (hE : env.Calm) {p : MTS.Par} (hp : p.Fits) (l : List (Ind D)) (xb : Vec D) (fxb : Fl) :
    Total env (turns B p l xb fxb) fun r => r.1.length = l.length := by
  induction l generalizing xb fxb with
  | nil => exact .pure' rfl
  | cons e l ih =>
    refine .bindT ?_ fun a => .bind' (ih _ _) fun r hr => .pure' (by simpa using hr)
    exact .ite (fun _ => .bindT (MTS.ends_improve hE hp _) fun _ => .pure' trivial) fun _ => .pure' trivial

theorem safe_mk (hE : env.Calm) (hB : B.Proper) (hN : 0 < N) (opt : OptType) {p : MTS.Par} (hp : p.Fits) (ev : DE.Evolve D (Mark D))
    (red : List (Ind D) → Prog (Vec D) (List (Ind D))) (hev : ∀ l xb, Ends env (ev l xb)) (hred : ∀ l, l ≠ [] → Total env (red l) (· ≠ [])) :
    (mk opt B N p ev red).Safe env := by
  refine ⟨fun l : List (Ind D) => l ≠ [], .bind' (Total.tabM fun _ => DE.total_randInd hE hB opt (fresh B)) fun r hr => .pure' ?_, fun l xb fxb hl => ?_⟩
  · have h : List.ofFn r ≠ [] := by rw [Ne, List.ofFn_eq_nil_iff]; omega
    refine ⟨h, by simpa [mk, DE.mk] using h, by simp [mk, DE.mk], fun v hv => ?_⟩
    obtain ⟨e, he, rfl⟩ := List.mem_map.1 hv
    obtain ⟨i, rfl⟩ := List.mem_ofFn.1 he
    exact hr i
  · have hlen : ∀ {a b : List (Ind D)}, a.length = b.length → b ≠ [] → a ≠ [] := fun h hb ha => by
      rw [ha] at h
      exact hb (List.length_eq_zero_iff.1 h.symm)
    refine .bindT (hev _ _) fun new => .bind' (P := fun r : List (Ind D) × Vec D × Fl => r.1 ≠ [])
      (.bindT (DE.ends_best (DE.survivors_ne hl new) _ _) fun _ => .pure' (DE.survivors_ne hl new)) fun r hr => ?_
    refine .bind' (hred _ hr) fun l' hl' => .bind' ((total_turns hE hp l' _ _).mono fun r hr => hlen hr hl') fun r hr => ?_
    refine .bind' (P := fun l : List (Ind D) => l ≠ []) (.bindT Total.sortIdx.ends fun o => .pure' ?_) fun l'' hl'' => .bindT (DE.ends_best hl'' _ _) fun _ => .pure' hl''
    rw [Ne, List.ofFn_eq_nil_iff]
    exact fun h => hr (List.length_eq_zero_iff.1 h)

open MTS

variable {F : Prop}

/-- A strategy that returns, and makes a finite point from finite ones. -/
def Makes (env : Env (Vec D)) (F : Prop) (f : Fl) (strat : DE.Strategy D) : Prop :=
  ∀ {n : ℕ} (pop : Fin n → Vec D) i cr xb, (F → (∀ i, ASO.Finite (pop i)) ∧ ASO.Finite xb) → Sure env (strat pop i f cr xb) fun x => F → ASO.Finite x

theorem makes_strategy (hE : env.Calm) (hc : env.Polite) (hD : 0 < D) {f : Fl} {k : ℕ} {mutant : {n : ℕ} → (Fin n → Vec D) → Fin n → (Fin k → Fin n) → Fl → Vec D → Vec D}
    (hm : ∀ {n : ℕ} (pop : Fin n → Vec D) i r xb, F → (∀ i, ASO.Finite (pop i)) → ASO.Finite xb → ASO.Finite (mutant pop i r f xb)) :
    Makes env F f (DE.strategy k mutant) := fun {n} pop i cr xb h => by
  unfold DE.strategy DE.binomial
  refine .bind' (.quiet (hE.noFuel hc) (Total.intFin hD).ends fun C => Yields.intFin.quiet) fun j _ =>
    .bind' (.quiet (hE.noFuel hc) (DE.ends_parents i) fun C => DE.Yields.parents.quiet) fun r _ => Sure.mono (Sure.tabM (P := fun _ v => F → Fi v) fun j' => .bind' .rand fun u _ => .pure' fun hF => ?_)
      fun x hx hF j => hx j hF
  split
  · exact hm pop i r xb hF (h hF).1 (h hF).2 j'
  · exact (h hF).1 i j'

/-- All strategies of the library are such, with finite numbers in exact arithmetic. -/
theorem makes (hE : env.Calm) (hc : env.Polite) (hD : 0 < D) (hR : F → Tame env) {f : Fl} (hf : F → Fi f) :
    Makes env F f DE.crossRand1 ∧ Makes env F f DE.crossBest1 ∧ Makes env F f DE.crossRand2 ∧ Makes env F f DE.crossBest2 ∧
      Makes env F f DE.crossCurr2Rand1 ∧ Makes env F f DE.crossCurr2Best1 := by
  refine ⟨?_, ?_, ?_, ?_, ?_, ?_⟩ <;> refine makes_strategy hE hc hD fun pop i r xb hF hp hx j => ?_ <;> (have hA := (hR hF).exact; have hf := hf hF)
  · exact Fi.add hA (hp _ _) (.mul hA hf (.sub hA (hp _ _) (hp _ _)))
  · exact Fi.add hA (hx _) (.mul hA hf (.sub hA (hp _ _) (hp _ _)))
  · exact Fi.add hA (.add hA (hp _ _) (.mul hA hf (.sub hA (hp _ _) (hp _ _)))) (.mul hA hf (.sub hA (hp _ _) (hp _ _)))
  · exact Fi.add hA (.add hA (hx _) (.mul hA hf (.sub hA (hp _ _) (hp _ _)))) (.mul hA hf (.sub hA (hp _ _) (hp _ _)))
  · exact Fi.add hA (.add hA (hp _ _) (.mul hA hf (.sub hA (hp _ _) (hp _ _)))) (.mul hA hf (.sub hA (hp _ _) (hp _ _)))
  · exact Fi.add hA (.add hA (hp _ _) (.mul hA hf (.sub hA (hx _) (hp _ _)))) (.mul hA hf (.sub hA (hp _ _) (hp _ _)))

/-- An individual with finite coordinates and search range. -/
def Firm (F : Prop) (e : Ind D) : Prop := F → ASO.Finite e.x ∧ ASO.Finite e.ext.sr

theorem sure_evaluate (hE : env.Calm) (hR : F → Tame env) {i : Indiv D} (hi : F → ASO.Finite i.x) :
    Sure env i.evaluate fun e => (F → ASO.Finite e.x) ∧ e.f ≠ .nan :=
  .bind' (sure_repair hR hi) fun _ hx => .bind' (.eval hE) fun _ hf => .pure' ⟨hx, hf⟩

theorem fresh_finite (hB : B.Proper) (hR : F → Tame env) (hF : F) : ASO.Finite (fresh B).sr := fun j => by
  obtain ⟨l, u, hl, hu⟩ := proper_fin hB j
  exact Fi.half (hR hF).exact (.sub (hR hF).exact ⟨_, hu⟩ ⟨_, hl⟩) (by norm_num)

theorem sure_newInd (hE : env.Calm) (hB : B.Proper) (hR : F → Tame env) (opt : OptType) {x : Vec D} (hx : F → ASO.Finite x) :
    Sure env (DE.newInd opt (fresh B) x) (Firm F) :=
  .bind' (sure_evaluate hE hR hx) fun _ h => .pure' fun hF => ⟨h.1 hF, fresh_finite hB hR hF⟩

theorem sure_randInd (hE : env.Calm) (hB : B.Proper) (hR : F → Tame env) (opt : OptType) :
    Sure env (DE.randInd opt B (fresh B)) fun e => Firm F e ∧ e.f ≠ .nan :=
  .bind' (.bind' (P := ASO.Finite) ((Sure.tabM fun i => .unif (hB i)).mono fun _ h => finite_unif hB h) fun _ h => sure_evaluate hE hR fun _ => h) fun _ h =>
    .pure' ⟨fun hF => ⟨h.1 hF, fresh_finite hB hR hF⟩, h.2⟩

/-- An evolution step that returns. -/
def Evolves (env : Env (Vec D)) (F : Prop) (ev : DE.Evolve D (Mark D)) : Prop :=
  ∀ l xb, (∀ e ∈ l, Firm F e) → (F → ASO.Finite xb) → Sure env (ev l xb) fun new => ∀ i, Firm F (new i)

theorem sure_evolve (hE : env.Calm) (hB : B.Proper) (hR : F → Tame env) (opt : OptType) {strat : DE.Strategy D} {f : Fl} (hs : Makes env F f strat) (cr : Fl) :
    Evolves env F (DE.evolve opt (fresh B) strat f cr) := fun l _ hl hx =>
  .tabM fun _ => .bind' (hs _ _ _ _ fun hF => ⟨fun i => (hl _ (List.get_mem l i) hF).1, hx hF⟩) fun _ h => sure_newInd hE hB hR _ h

theorem sure_evolveMulti (hE : env.Calm) (hc : env.Polite) (hB : B.Proper) (hR : F → Tame env) (opt : OptType) {strats : List (DE.Strategy D)} (hn : strats ≠ []) {f : Fl}
    (hs : ∀ s : DE.Strategy D, (s : DE.Strategy D) ∈ strats → Makes env F f s) (cr : Fl) : Evolves env F (DE.evolveMulti opt (fresh B) strats f cr) := fun l _ hl hx =>
  .tabM fun _ => .bind' (.mapMAll (P := Firm F) fun s hm =>
    .bind' (hs s hm _ _ _ _ fun hF => ⟨fun i => (hl _ (List.get_mem l i) hF).1, hx hF⟩) fun _ h => sure_newInd hE hB hR _ h) fun c h =>
    (Sure.quiet (hE.noFuel hc) (Total.argminRec fun h0 => hn (List.length_eq_zero_iff.1 (by rw [← h.2, h0]; rfl))) fun C => ⟨fun g => wp_argminRec fun _ _ _ => ⟨trivial, rfl⟩⟩).mono
      fun a ha => h.1 a ha.1

theorem sure_turns (hE : env.Calm) (hc : env.Polite) (hB : B.Proper) (hR : F → Tame env) {p : MTS.Par} (hp : p.Fits)
    (hk : ∀ k ∈ p.ls, k.Ready B F) (l : List (Ind D)) (hl : ∀ e ∈ l, Firm F e) (xb : Vec D) (hx : F → ASO.Finite xb) (fxb : Fl) :
    Sure env (turns B p l xb fxb) fun r => r.1.length = l.length ∧ (∀ e ∈ r.1, Firm F e) ∧ (F → ASO.Finite r.2.1) := by
  induction l generalizing xb fxb with
  | nil => exact .pure' ⟨rfl, fun _ h => by simp at h, hx⟩
  | cons e l ih =>
    have he := hl e (by simp)
    refine .bind' (P := fun a : Ind D × Vec D × Fl => Firm F a.1 ∧ (F → ASO.Finite a.2.1)) ?_ fun a ha => .bind' (ih (fun e he => hl e (by simp [he])) _ ha.2 _) fun r hr =>
      .pure' ⟨by simpa using hr.1, fun e he => ?_, hr.2.2⟩
    · refine .ite (fun _ => .bind' (MTS.sure_improve hE hc hB hR hp hk _ fun hF => ⟨(he hF).1, hx hF, (he hF).2⟩) fun r hr => .pure' ⟨fun hF => ⟨(hr hF).1, (hr hF).2.2⟩, fun hF => ?_⟩)
        fun _ => .pure' ⟨he, hx⟩
      simp only [LS.best]
      split
      · exact (hr hF).1
      · exact (hr hF).2.1
    · rcases List.mem_cons.1 he with rfl | he
      · exact ha.1
      · exact hr.2.1 e he

theorem sure_best {l : List (Ind D)} (hl : l ≠ []) (hf : ∀ e ∈ l, Firm F e) {xb : Vec D} (hx : F → ASO.Finite xb) (fxb : Fl) :
    Sure env (DE.best l xb fxb) fun b => F → ASO.Finite b.1 := by
  refine .ofExcept ?_
  obtain ⟨i, h1, h2⟩ := Total.argmin_ok (l := l.map (·.f)) (by simpa using hl)
  have h3 : i < (l.map (·.x)).length := by simpa using h2
  unfold NiaPy.getBest
  simp only [h1, List.getElem?_eq_getElem h2, List.getElem?_eq_getElem h3]
  split
  · refine ⟨_, rfl, fun hF => ?_⟩
    simp only [List.getElem_map]
    exact (hf _ (List.getElem_mem _) hF).1
  · exact ⟨_, rfl, hx⟩

theorem sure_mk (hE : env.Calm) (hc : env.Polite) (hB : B.Proper) (hN : 0 < N) (hR : F → Tame env) (opt : OptType)
    {p : MTS.Par} (hp : p.Fits) (hk : ∀ k ∈ p.ls, k.Ready B F) {ev : DE.Evolve D (Mark D)} (hev : Evolves env F ev)
    {red : List (Ind D) → Prog (Vec D) (List (Ind D))} (hred : ∀ l, l ≠ [] → Sure env (red l) fun l' => l' ≠ [] ∧ ∀ e ∈ l', e ∈ l) :
    (mk opt B N p ev red).Sure env := by
  refine ⟨fun (l : List (Ind D)) xb => l ≠ [] ∧ (∀ e ∈ l, Firm F e) ∧ (F → ASO.Finite xb), .bind' (Sure.tabM fun _ => sure_randInd hE hB hR opt) fun r hr => .pure' ?_,
    fun l xb fxb ⟨hl, hf, hx⟩ => ?_⟩
  · have h : List.ofFn r ≠ [] := by rw [Ne, List.ofFn_eq_nil_iff]; omega
    have hm : ∀ e ∈ List.ofFn r, Firm F e ∧ e.f ≠ .nan := fun e he => by
      obtain ⟨i, rfl⟩ := List.mem_ofFn.1 he
      exact hr i
    refine ⟨fun x hx => ⟨h, fun e he => (hm e he).1, fun hF => ?_⟩, by simpa [mk, DE.mk] using h, by simp [mk, DE.mk], fun v hv => ?_⟩
    · obtain ⟨e, he, rfl⟩ := List.mem_map.1 hx
      exact ((hm e he).1 hF).1
    · obtain ⟨e, he, rfl⟩ := List.mem_map.1 hv
      exact (hm e he).2
  · have hlen : ∀ {a b : List (Ind D)}, a.length = b.length → b ≠ [] → a ≠ [] := fun h hb ha => by
      rw [ha] at h
      exact hb (List.length_eq_zero_iff.1 h.symm)
    refine .bind' (hev _ _ hf hx) fun new hnew => ?_
    have hsv : ∀ e ∈ DE.survivors l new, Firm F e := fun e he => by
      obtain ⟨i, rfl⟩ := List.mem_ofFn.1 he
      split
      · exact hnew i
      · exact hf _ (List.get_mem l i)
    refine .bind' (P := fun r : List (Ind D) × Vec D × Fl => r.1 ≠ [] ∧ (∀ e ∈ r.1, Firm F e) ∧ (F → ASO.Finite r.2.1))
      (.bind' (sure_best (DE.survivors_ne hl new) hsv hx _) fun _ hb => .pure' ⟨DE.survivors_ne hl new, hsv, hb⟩) fun r hr => ?_
    refine .bind' (hred _ hr.1) fun l' hl' => .bind' (sure_turns hE hc hB hR hp hk l' (fun e he => hr.2.1 e (hl'.2 e he)) _ hr.2.2 _) fun r hr => ?_
    have hr1 := hlen hr.1 hl'.1
    refine .bind' (P := fun l : List (Ind D) => l ≠ [] ∧ ∀ e ∈ l, Firm F e) (.bind' (.quiet (hE.noFuel hc) Total.sortIdx.ends fun C => Yields.sortIdx.quiet)
      fun o _ => .pure' ⟨?_, fun e he => ?_⟩) fun l'' hl'' => .bind' (sure_best hl''.1 hl''.2 hr.2.2 _) fun _ hb => .pure' ⟨hl''.1, hl''.2, hb⟩
    · rw [Ne, List.ofFn_eq_nil_iff]
      exact fun h => hr1 (List.length_eq_zero_iff.1 h)
    · obtain ⟨i, rfl⟩ := List.mem_ofFn.1 he
      exact hr.2.1 (r.1.get i) (List.get_mem r.1 i)

omit [Arith] in
theorem sure_reduce {pMax : ℕ} (hp : 0 < pMax) (rp : ℕ) (l : List (Ind D)) (hl : l ≠ []) :
    Sure env (DE.reduce pMax rp l) fun l' => l' ≠ [] ∧ ∀ e ∈ l', e ∈ l := ⟨fun w => by
  have := List.length_pos_iff.2 hl
  simp only [DE.reduce, Prog.bind_def, Prog.run_bind, Prog.run_look]
  rw [if_neg (by positivity)]
  split
  · rename_i h
    refine ⟨_, _, rfl, ?_, fun e he => ?_⟩
    · unfold DE.halve
      rw [Ne, List.ofFn_eq_nil_iff]
      omega
    · obtain ⟨i, rfl⟩ := List.mem_ofFn.1 he
      simp only
      split <;> exact List.get_mem _ _
  · exact ⟨_, _, rfl, hl, fun _ h => h⟩⟩

end HDE

/-! ### C71 -/

/-- The hybrids and variants of multiple trajectory search, with parameters for which they return. `F` says that all points are
finite; it is needed for `mts_ls3v1` only, otherwise take `False`. -/
inductive Searching (opt : OptType) (B : Box D) (env : Env (Vec D)) (F : Prop) : Alg (Vec D) → Prop
  | mts (N : ℕ) {p : MTS.Par} (hN : 0 < N) (hp : p.Fits) (hk : ∀ k ∈ p.ls, k.Ready B F) : Searching opt B env F (MTS.alg B N p)
  | hde (N : ℕ) {p : MTS.Par} (hN : 0 < N) (hp : p.Fits) (hk : ∀ k ∈ p.ls, k.Ready B F) {strat : DE.Strategy D} {f : Fl} (hs : HDE.Makes env F f strat) (cr : Fl) : Searching opt B env F (HDE.alg opt B N p strat f cr)
  | hdeMulti (N : ℕ) {p : MTS.Par} (hN : 0 < N) (hp : p.Fits) (hk : ∀ k ∈ p.ls, k.Ready B F) {strats : List (DE.Strategy D)} (hn : strats ≠ []) {f : Fl}
      (hs : ∀ s : DE.Strategy D, (s : DE.Strategy D) ∈ strats → HDE.Makes env F f s) (cr : Fl) : Searching opt B env F (HDE.algMulti opt B N p strats f cr)
  | hdeDyn (N : ℕ) {p : MTS.Par} (hN : 0 < N) (hp : p.Fits) (hk : ∀ k ∈ p.ls, k.Ready B F) {strat : DE.Strategy D} {f : Fl} (hs : HDE.Makes env F f strat) (cr : Fl) {pMax : ℕ} (hm : 0 < pMax) (rp) : Searching opt B env F (HDE.algDyn opt B N p strat f cr pMax rp)
  | hdeDynMulti (N : ℕ) {p : MTS.Par} (hN : 0 < N) (hp : p.Fits) (hk : ∀ k ∈ p.ls, k.Ready B F) {strats : List (DE.Strategy D)} (hn : strats ≠ []) {f : Fl}
      (hs : ∀ s : DE.Strategy D, (s : DE.Strategy D) ∈ strats → HDE.Makes env F f s) (cr : Fl) {pMax : ℕ} (hm : 0 < pMax) (rp) : Searching opt B env F (HDE.algDynMulti opt B N p strats f cr pMax rp)

/-- C71 for multiple trajectory search and the hybrids with differential evolution, those with `mts_ls3v1` included: with `max_iters = m`
`run` returns a solution. -/
theorem C71_searching {F : Prop} {opt : OptType} {A : Alg (Vec D)} (h : Searching opt B env F A) (hE : env.Calm) (hc : env.Polite) (hB : B.Proper)
    (hR : F → MTS.Tame env) (m : ℕ) (hm : env.maxIters = some m) (main : Bool) (ncb fuel : ℕ) (hf : m < fuel) :
    ∃ res, (A.exec env main ncb fuel).1 = .ok ⟨some res, none⟩ := by
  refine Alg.Sure.exec ?_ hc m hm main ncb fuel hf
  cases h with
  | mts N hN hp hk => exact MTS.sure hE hc hB hN hR hp hk
  | hde N hN hp hk hs cr => exact HDE.sure_mk hE hc hB hN hR opt hp hk (HDE.sure_evolve hE hB hR _ hs _) fun l hl => .pure' ⟨hl, fun _ h => h⟩
  | hdeMulti N hN hp hk hn hs cr =>
    exact HDE.sure_mk hE hc hB hN hR opt hp hk (HDE.sure_evolveMulti hE hc hB hR _ hn hs _) fun l hl => .pure' ⟨hl, fun _ h => h⟩
  | hdeDyn N hN hp hk hs cr hm rp => exact HDE.sure_mk hE hc hB hN hR opt hp hk (HDE.sure_evolve hE hB hR _ hs _) (HDE.sure_reduce hm rp)
  | hdeDynMulti N hN hp hk hn hs cr hm rp =>
    exact HDE.sure_mk hE hc hB hN hR opt hp hk (HDE.sure_evolveMulti hE hc hB hR _ hn hs _) (HDE.sure_reduce hm rp)

omit [Arith] in
/-- On a box with finite bounds `mts_ls3v1` is ready for some number of rounds: its loop ends. -/
theorem MTS.exists_ready (hB : B.Proper) {F : Prop} (hF : F) : ∃ n₀, ∀ n, n₀ ≤ n → (MTS.Search.ls3v1 n).Ready B F := by
  have hj : ∀ j, ∃ n₀ : ℕ, ∀ n, n₀ ≤ n → ∀ l h, B.lo j = .fin l → B.hi j = .fin h → (h - l) / 10 * (2 / 5) ^ n ≤ 1 / 1000 := fun j => by
    obtain ⟨l, h, hl, hh⟩ := MTS.proper_fin hB j
    have hle : l ≤ h := by
      have := hB j
      rw [hl, hh] at this
      exact (Fl.fin_le_fin _ _).1 (le_of_unifErr this)
    obtain ⟨n₀, hn⟩ := exists_pow_lt_of_lt_one (x := 1 / (1000 * ((h - l) / 10 + 1))) (y := (2 / 5 : ℚ)) (by
      have : 0 ≤ (h - l) / 10 := by linarith
      positivity) (by norm_num)
    refine ⟨n₀, fun n hnn l' h' hl' hh' => ?_⟩
    rw [hl] at hl'; rw [hh] at hh'
    cases hl'; cases hh'
    have h0 : 0 ≤ (h - l) / 10 := by linarith
    have h1 : ((2 : ℚ) / 5) ^ n ≤ (2 / 5) ^ n₀ := pow_le_pow_of_le_one (by norm_num) (by norm_num) hnn
    calc (h - l) / 10 * (2 / 5) ^ n ≤ ((h - l) / 10 + 1) * (1 / (1000 * ((h - l) / 10 + 1))) :=
          mul_le_mul (by linarith) (by linarith) (by positivity) (by linarith)
      _ = 1 / 1000 := by
          have : h - l + 10 ≠ 0 := by linarith
          field_simp
  choose f hf using hj
  refine ⟨Finset.univ.sup f, fun n hn => ⟨hF, fun j l h hl hh => hf j n (le_trans (Finset.le_sup (Finset.mem_univ j)) hn) l h hl hh⟩⟩

omit [Arith] in
/-- C71 is false for multiple trajectory search with four local searches (the list of the default ones has three): `grading_run` keeps the
grades in an array of length three. -/
theorem C71_mts_false : ((@MTS.alg Ex.arith 1 (Ex.box 1) 2 (MTS.Ex.par [.ls1, .ls2, .ls3, .ls1])).exec Ex.env2 true 0 5).1 = .error .indexError := by
  have h : (match ((@MTS.alg Ex.arith 1 (Ex.box 1) 2 (MTS.Ex.par [.ls1, .ls2, .ls3, .ls1])).exec Ex.env2 true 0 5).1 with | .error .indexError => true | _ => false) = true := by
    decide +kernel
  split at h
  · assumption
  · cases h

omit [Arith] in
/-- Nor does it hold with an empty list of local searches: the best of no solutions does not exist. -/
theorem C71_mts_empty_false : ((@MTS.alg Ex.arith 1 (Ex.box 1) 2 (MTS.Ex.par [])).exec Ex.env2 true 0 5).1 = .error .valueError := by
  have h : (match ((@MTS.alg Ex.arith 1 (Ex.box 1) 2 (MTS.Ex.par [])).exec Ex.env2 true 0 5).1 with | .error .valueError => true | _ => false) = true := by
    decide +kernel
  split at h
  · assumption
  · cases h

/-! ### Cases that meet the hypotheses -/

namespace Ex

omit [Arith] in
theorem env2_tame (mi : ℕ) (me : Option ℕ) : @MTS.Tame Ex.arith D (env2 mi me) := by
  let _ := Ex.arith
  refine ⟨SHADE.exactArith_exact _, fun r k x hx j => ?_⟩
  obtain ⟨q, hq⟩ := hx j
  change ∃ q, clip1 (x j) = .fin q
  rw [hq]
  exact ⟨_, rfl⟩

omit [Arith] in
theorem ready7 (D : ℕ) : (MTS.Search.ls3v1 7).Ready (box D) True := by
  refine ⟨trivial, fun j l h hl hh => ?_⟩
  cases hl; cases hh
  norm_num

end Ex

omit [Arith] in
/-- DifferentialEvolutionMTSv1 on the sphere: `C71_searching` applies, and so it does to MultipleTrajectorySearch with `mts_ls3`. -/
example : (∃ res, ((@HDE.alg Ex.arith 2 .minimization (Ex.box 2) 3 (MTS.Ex.par [.ls1v1, .ls2, .ls3v1 7]) (@DE.crossRand1 Ex.arith 2) (.fin (1 / 2))
      (.fin (1 / 2))).exec Ex.env2 true 0 5).1 = .ok ⟨some res, none⟩) ∧
    ∃ res, ((@MTS.alg Ex.arith 2 (Ex.box 2) 3 (MTS.Ex.par [.ls1, .ls2, .ls3])).exec Ex.env2 true 0 5).1 = .ok ⟨some res, none⟩ := by
  let _ := Ex.arith
  have hE := Ex.env2_calm (D := 2) 2 none
  have hc := Ex.env2_polite (D := 2) 2 none
  refine ⟨C71_searching (F := True) (opt := .minimization) (.hde 3 (by norm_num) ⟨by decide, by decide⟩ (fun k hk => ?_)
    (HDE.makes hE hc (by norm_num) (fun _ => Ex.env2_tame 2 none) fun _ => ⟨_, rfl⟩).1 _) hE hc (Ex.box_proper 2) (fun _ => Ex.env2_tame 2 none) 2 rfl true 0 5 (by norm_num),
    C71_searching (F := False) (opt := .minimization) (.mts 3 (by norm_num) ⟨by decide, by decide⟩ fun k hk => ?_) hE hc (Ex.box_proper 2) nofun 2 rfl true 0 5 (by norm_num)⟩
  · simp only [MTS.Ex.par, List.mem_cons, List.not_mem_nil, or_false] at hk
    rcases hk with rfl | rfl | rfl
    exacts [trivial, trivial, Ex.ready7 2]
  · simp only [MTS.Ex.par, List.mem_cons, List.not_mem_nil, or_false] at hk
    rcases hk with rfl | rfl | rfl
    exacts [trivial, trivial, id]

/-! ### Algorithms that need a task that has not stopped -/

omit [Arith] in
/-- Like `Alg.Safe`; an iteration need not raise nothing if the task has stopped before it. -/
def Alg.SafeWhile (A : Alg X) (env : Env X) : Prop := ∃ Inv : A.σ → Prop,
  Total env A.init (fun s => Inv s ∧ A.fit s ≠ [] ∧ (A.pop s).length = (A.fit s).length ∧ ∀ v ∈ A.fit s, v ≠ .nan) ∧
  ∀ s xb fxb w, Inv s → stoppingCondition env.toTaskCfg w.st = false →
    (∃ r w', (A.iter s xb fxb).run env w = (.ok r, w') ∧ Inv r.1) ∨ ∃ w', (A.iter s xb fxb).run env w = (.error .outOfFuel, w')

omit [Arith] in
theorem Alg.SafeWhile.body {A : Alg X} (h : A.SafeWhile envX) (hc : envX.Polite) (ncb fuel : ℕ) : Ends envX (A.body ncb fuel) := by
  obtain ⟨Inv, h0, hi⟩ := h
  have hloop : ∀ fuel s xb fxb, Inv s → Ends envX (A.loop ncb fuel s xb fxb) := by
    intro fuel
    induction fuel with
    | zero => exact fun s xb fxb _ => .fuel
    | succ fuel ih =>
      refine fun s xb fxb hs => ⟨fun w => ?_⟩
      by_cases hst : stoppingCondition envX.toTaskCfg w.st = true
      · refine Or.inl ⟨(s, xb, fxb), w, ?_, trivial⟩
        simp only [Alg.loop, Prog.bind_def, Prog.run_bind, Prog.run_look, hst, if_true]
        rfl
      · simp only [Alg.loop, Prog.bind_def, Prog.run_bind, Prog.run_look, hst, Bool.false_eq_true, if_false]
        have f1 := fireAll_st envX ncb (.beforeIteration (A.pop s) (A.fit s) xb fxb) w
        rcases (Total.fireAll hc ncb (.beforeIteration (A.pop s) (A.fit s) xb fxb)).out w with ⟨u, w1, hr1, -⟩ | ⟨w1, hr1⟩
        · rw [hr1] at f1 ⊢
          rcases hi s xb fxb w1 hs (by rw [f1]; simpa using hst) with ⟨r, w2, hr2, hr⟩ | ⟨w2, hr2⟩ <;> simp only [hr2]
          · have key : Ends envX ((fireAll ncb (.afterIteration (A.pop r.1) (A.fit r.1) r.2.1 r.2.2)).bind fun _ =>
                (Prog.next : Prog X Unit).bind fun _ => A.loop ncb fuel r.1 r.2.1 r.2.2) :=
              .bindT (.fireAll hc _ _) fun _ => .bindT (.ok fun w => ⟨_, _, rfl, trivial⟩) fun _ => ih _ _ _ hr
            have key := key.out w2
            simp only [Prog.run_bind] at key ⊢
            exact key
          · exact Or.inr ⟨_, rfl⟩
        · rw [hr1]
          exact Or.inr ⟨_, rfl⟩
  refine .bindT (.fireAll hc _ _) fun _ => .bind' h0 fun s ⟨hs, h1, h2, h3⟩ => ?_
  obtain ⟨b, hb⟩ := getBest_first h1 h2 h3
  exact .bindT (.ofExcept ⟨b, hb, trivial⟩) fun b => .bindT (hloop _ _ _ _ hs) fun _ => .bindT (.fireAll hc _ _) fun _ => .pure' trivial

omit [Arith] in
theorem Alg.SafeWhile.exec {A : Alg X} (h : A.SafeWhile envX) (hc : envX.Polite) (main : Bool) (ncb fuel : ℕ)
    (hf : (A.exec envX main ncb fuel).1 ≠ .error .outOfFuel) : ∃ res, (A.exec envX main ncb fuel).1 = .ok ⟨some res, none⟩ := by
  rw [exec_eq] at hf ⊢
  simp only at hf ⊢
  rcases (h.body hc ncb fuel).out (World.init envX.opt) with ⟨r, w', hr, -⟩ | ⟨w', hr⟩
  · have hr : (A.execBody envX ncb fuel).1 = .ok r := congrArg Prod.fst hr
    rw [hr]
    exact ⟨_, rfl⟩
  · have hr : (A.execBody envX ncb fuel).1 = .error .outOfFuel := congrArg Prod.fst hr
    rw [hr] at hf
    simp at hf

omit [Arith] in
/-- A task that has not stopped has iterations left. -/
theorem iters_lt {w : World X} (h : stoppingCondition envX.toTaskCfg w.st = false) {T : ℕ} (hT : envX.maxIters = some T) : w.st.iters < T := by
  simp only [stoppingCondition, hT, reached, Bool.or_eq_false_iff, decide_eq_false_iff_not] at h
  omega

namespace MFO

omit [Arith] in
/-- The number of flames is one of `1, ..., N`. -/
theorem flames_ok (fn : Fn → Fl → Fl) (hR : @SHADE.RoundLaw (exactArith fn)) (hN : 1 ≤ N) (t : ℕ) (mi : Option ℕ) (ht : ∀ T, mi = some T → t < T) :
    letI := exactArith fn; ∃ z : ℤ, 1 ≤ z ∧ DE.pyRound (flames N t mi) = .ok (.fin z) := by
  letI := exactArith fn
  obtain ⟨r, hm, hi, hr⟩ := hR
  have key : ∃ q : ℚ, 1 ≤ q ∧ flames N t mi = .fin q := by
    cases mi with
    | none => exact ⟨N, by exact_mod_cast hN, (C92_mfo_false fn t).1⟩
    | some T =>
      have h := C92_mfo fn hN t T (ht T rfl)
      exact ⟨_, by have := h.2.1; rwa [h.1, Fl.fin_le_fin] at this, h.1⟩
  obtain ⟨q, hq, e⟩ := key
  refine ⟨r q, ?_, ?_⟩
  · have := hm hq
    have h1 := hi 1
    simp only [Int.cast_one] at h1
    omega
  · rw [e]
    exact congrArg Except.ok (hr q)

omit [Arith] in
/-- Moth flame optimization. -/
theorem safe (fn : Fn → Fl → Fl) (hR : @SHADE.RoundLaw (exactArith fn)) (hE : env.Calm) (hB : B.Proper) (hN : 0 < N) :
    letI := exactArith fn; (alg B N).SafeWhile env := by
  letI := exactArith fn
  refine ⟨fun _ => True, .bind' (Total.defaultNumpyInit hE hB hN) fun r hr => .pure' ⟨trivial, first_arr hN hr⟩, fun s xb fxb w _ hst => ?_⟩
  have key : ∀ (si : Fin N → Fin N) (v : TaskView), (∀ T, v.maxIters = some T → v.iters < T) → Ends env (do
      let fn ← Prog.ofExcept (DE.pyRound (flames N v.iters v.maxIters))
      let pop ← tabM N fun i => do
        let flame ← Prog.ofExcept (if (i : ℤ) ≤ toInt fn then .ok (s.pop (si i)) else pyIndex (fun k => s.pop (si k)) (toInt fn))
        move (slope v.iters v.maxIters) (s.pop i) (s.pop (si i)) flame
      let pop ← repairRows pop
      let fit ← evalRows pop
      let (xb, fxb) ← Prog.getBest (List.ofFn pop) (List.ofFn fit) xb fxb
      return ((⟨pop, fit⟩ : St D N), xb, fxb)) := by
    intro si v hv
    obtain ⟨z, hz, e⟩ := flames_ok fn hR hN v.iters v.maxIters hv
    refine .bind' (.ofExcept (P := fun f => f = .fin z) ⟨_, e, rfl⟩) fun f hf => ?_
    subst hf
    have hz' : toInt (.fin z) = z := by simp [toInt]
    refine .bindT (.tabMT fun i => .bindT (.ofExcept (P := fun _ => True) ?_) fun fl => .tabMT fun j => .bindT Total.rand.ends fun _ => .pure' trivial) fun pop =>
      .bindT .repairRows fun pop => .bindT (Total.evalRows hE hN).ends fun f => .bindT (Total.getBest_arr hN) fun b => .pure' trivial
    rw [hz']
    split
    · exact ⟨_, rfl, trivial⟩
    · have h1 : ¬ z < 0 := by omega
      have h2 : 0 ≤ z ∧ z < N := ⟨by omega, by have := i.2; omega⟩
      exact ⟨_, by rw [pyIndex, if_neg h1, rowAt, dif_pos h2], trivial⟩
  exact (key (idxArr (env.rng.argsort w.rk (List.ofFn (St.fit s)))) ⟨w.st.iters, w.st.evals, env.maxIters, env.maxEvals, stoppingCondition env.toTaskCfg w.st⟩
    fun T hT => iters_lt hst hT).out { w with rk := w.rk + 1 }

omit [Arith] in
/-- C71 for moth flame optimization: in exact arithmetic with `max_iters = m` or `max_evals = m` it returns a solution. -/
theorem C71_mfo (fn : Fn → Fl → Fl) (hR : @SHADE.RoundLaw (exactArith fn)) (hE : env.Calm) (hc : env.Polite) (hB : B.Proper) (hN : 0 < N) (m : ℕ)
    (hm : env.maxIters = some m ∨ env.maxEvals = some m) (main : Bool) (ncb fuel : ℕ) (hf : m < fuel) :
    letI := exactArith fn; ∃ res, ((alg B N).exec env main ncb fuel).1 = .ok ⟨some res, none⟩ := by
  letI := exactArith fn
  refine (safe fn hR hE hB hN).exec hc main ncb fuel ?_
  rcases hm with hm | hm
  · exact (C17_max_iters (opt := .minimization) (.mfo (B := B) N) env (hE.noFuel hc) m hm main ncb fuel hf).1
  · exact C17_max_evals (opt := .minimization) (.mfo (B := B) N) hN env (hE.noFuel hc) m hm main ncb fuel hf

end MFO

omit [Arith] in
/-- The hypotheses of `MFO.C71_mfo` hold, with any number of iterations. -/
example (m : ℕ) : ∃ res, ((@MFO.alg SHADE.Ex.arith 2 (Ex.box 2) 3).exec (Ex.env2 m) true 0 (m + 1)).1 = .ok ⟨some res, none⟩ :=
  MFO.C71_mfo _ SHADE.Ex.laws.2.2.2 (Ex.env2_calm m none) (Ex.env2_polite m none) (Ex.box_proper 2) (by decide) m (Or.inl rfl) true 0 _ (by omega)

/-! ### Random search -/

omit [Arith] in
/-- An algorithm whose initialization returns at the beginning of a run, and whose iterations return if the task has not stopped. -/
def Alg.SureWhile (A : Alg X) (env : Env X) : Prop := ∃ Inv : A.σ → X → Fl → Prop,
  (∀ w, w.rk = 0 → ∃ s w', A.init.run env w = (.ok s, w') ∧ (A.fit s ≠ [] ∧ (A.pop s).length = (A.fit s).length ∧ ∀ v ∈ A.fit s, v ≠ .nan) ∧
    (stoppingCondition env.toTaskCfg w'.st = false → ∀ b, getBest (A.pop s) (A.fit s) none .pinf = .ok b → Inv s b.1 b.2)) ∧
  ∀ s xb fxb w, Inv s xb fxb → stoppingCondition env.toTaskCfg w.st = false → ∃ r w', (A.iter s xb fxb).run env w = (.ok r, w') ∧
    (stoppingCondition env.toTaskCfg w'.st = false → Inv r.1 r.2.1 r.2.2)

omit [Arith] in
theorem stopping_next {c : TaskCfg X} {s : TaskSt} (h : stoppingCondition c (nextIter s) = false) : stoppingCondition c s = false := by
  simp only [stoppingCondition, nextIter, Bool.or_eq_false_iff] at h ⊢
  refine ⟨⟨h.1.1, ?_⟩, h.2⟩
  have := h.1.2
  cases hm : c.maxIters with
  | none => rfl
  | some m => simp only [hm, reached, decide_eq_false_iff_not] at this ⊢; omega

omit [Arith] in
theorem fireAll_rk (env : Env X) (ncb : ℕ) (e : Event X) (w : World X) : ((fireAll ncb e).run env w).2.rk = w.rk := by
  have key : ∀ l : List ℕ, ∀ w : World X, ((forList l (fun i _ => Prog.fire i e) ()).run env w).2.rk = w.rk := by
    intro l
    induction l with
    | nil => intro w; rfl
    | cons a l ih =>
      intro w
      simp only [forList, Prog.run_bind, Prog.run_fire]
      cases env.callback a w.events.length e with
      | ok u => simp only; rw [ih]
      | error e => rfl
  exact key _ w

omit [Arith] in
/-- With `max_iters = m`, or with `max_evals = m` if every iteration evaluates something, such an algorithm returns a solution. -/
theorem Alg.SureWhile.exec {A : Alg X} (h : A.SureWhile envX) (hc : envX.Polite) (m : ℕ)
    (hm : envX.maxIters = some m ∨ (envX.maxEvals = some m ∧ ∀ s xb fxb w r w', stoppingCondition envX.toTaskCfg w.st = false →
      (A.iter s xb fxb).run envX w = (.ok r, w') → w.st.evals < w'.st.evals)) (main : Bool) (ncb fuel : ℕ)
    (hf : m < fuel) : ∃ res, (A.exec envX main ncb fuel).1 = .ok ⟨some res, none⟩ := by
  obtain ⟨Inv, h0, hi⟩ := h
  obtain ⟨mu, mu1, mu2⟩ : ∃ mu : TaskSt → ℕ, (∀ st, stoppingCondition envX.toTaskCfg st = false → mu st < m) ∧
      ∀ s xb fxb w r w', stoppingCondition envX.toTaskCfg w.st = false → (A.iter s xb fxb).run envX w = (.ok r, w') → mu w.st < mu (nextIter w'.st) := by
    rcases hm with hm | ⟨hm, hp⟩
    · refine ⟨fun st => st.iters, fun st hst => ?_, fun s xb fxb w r w' _ hr => ?_⟩
      · simp only [stoppingCondition, hm, reached, Bool.or_eq_false_iff, decide_eq_false_iff_not] at hst ⊢
        omega
      · have := iters_mono envX (A.iter s xb fxb) w
        rw [hr] at this
        simp only [nextIter] at this ⊢
        omega
    · refine ⟨fun st => st.evals, fun st hst => ?_, fun s xb fxb w r w' hst hr => hp s xb fxb w r w' hst hr⟩
      simp only [stoppingCondition, hm, reached, Bool.or_eq_false_iff, decide_eq_false_iff_not] at hst ⊢
      omega
  have hloop : ∀ fuel s xb fxb (w : World X), (stoppingCondition envX.toTaskCfg w.st = false → Inv s xb fxb) → 0 < fuel → m < mu w.st + fuel →
      ∃ r w', (A.loop ncb fuel s xb fxb).run envX w = (.ok r, w') := by
    intro fuel
    induction fuel with
    | zero => exact fun _ _ _ _ _ h => absurd h (by omega)
    | succ fuel ih =>
      intro s xb fxb w hs _ hw
      simp only [Alg.loop, Prog.bind_def, Prog.run_bind, Prog.run_look]
      by_cases hst : stoppingCondition envX.toTaskCfg w.st = true
      · exact ⟨(s, xb, fxb), w, by simp only [hst, if_true]; rfl⟩
      have hst' : stoppingCondition envX.toTaskCfg w.st = false := by simpa using hst
      have hlt := mu1 _ hst'
      simp only [hst]
      simp only [Bool.false_eq_true, if_false, Prog.run_bind]
      obtain ⟨_, w1, h1, -⟩ := (NiaPy.Sure.fireAll hc ncb (.beforeIteration (A.pop s) (A.fit s) xb fxb)).out w
      have m1 := fireAll_st envX ncb (.beforeIteration (A.pop s) (A.fit s) xb fxb) w
      rw [h1] at m1 ⊢
      simp only at m1 ⊢
      obtain ⟨r, w2, h2, hr⟩ := hi s xb fxb w1 (hs hst') (by rw [m1]; exact hst')
      have m2 := mu2 s xb fxb w1 r w2 (by rw [m1]; exact hst') h2
      rw [h2]
      obtain ⟨_, w3, h3, -⟩ := (NiaPy.Sure.fireAll hc ncb (.afterIteration (A.pop r.1) (A.fit r.1) r.2.1 r.2.2)).out w2
      have m3 := fireAll_st envX ncb (.afterIteration (A.pop r.1) (A.fit r.1) r.2.1 r.2.2) w2
      simp only at m2 ⊢
      rw [h3] at m3 ⊢
      simp only [Prog.run_next] at m3 ⊢
      exact ih _ _ _ _ (fun h => hr (by simp only [m3] at h; exact stopping_next h)) (by omega) (by simp only [m3]; rw [m1] at m2; omega)
  have hbody : ∃ r, (A.execBody envX ncb fuel).1 = .ok r := by
    simp only [Alg.execBody, Alg.body, Prog.bind_def, Prog.run_bind]
    obtain ⟨_, w1, h1, -⟩ := (NiaPy.Sure.fireAll hc ncb .beforeRun).out (World.init envX.opt)
    have r1 := fireAll_rk envX ncb .beforeRun (World.init envX.opt)
    rw [h1] at r1 ⊢
    obtain ⟨s, w2, h2, ⟨k1, k2, k3⟩, hs⟩ := h0 w1 r1
    simp only
    rw [h2]
    obtain ⟨b, hb⟩ := getBest_first k1 k2 k3
    simp only [hb]
    obtain ⟨r, w3, h3⟩ := hloop fuel s b.1 b.2 w2 (fun h => hs h b hb) (by omega) (by omega)
    have e : (Prog.ofExcept (.ok b) : Prog X (X × Fl)).run envX w2 = (.ok b, w2) := rfl
    rw [e]
    simp only
    rw [h3]
    obtain ⟨_, w4, h4, -⟩ := (NiaPy.Sure.fireAll hc ncb .afterRun).out w3
    simp only
    rw [h4]
    exact ⟨r, rfl⟩
  obtain ⟨r, hr⟩ := hbody
  rw [exec_eq, hr]
  exact ⟨_, rfl⟩

namespace RS

omit [Arith] in
theorem run_randVec (env : Env (Vec D)) (n : ℕ) (w : World (Vec D)) :
    (randVec n : Prog (Vec D) (Vec n)).run env w = (.ok fun j => env.rng.rand (w.rk + j), { w with rk := w.rk + n }) := by
  have key : ∀ (n : ℕ) (w : World (Vec D)), (tabM n fun _ => (Prog.rand : Prog (Vec D) Fl)).run env w =
      (.ok fun j => env.rng.rand (w.rk + j), { w with rk := w.rk + n }) := by
    intro n
    induction n with
    | zero => intro w; simp only [tabM, Prog.run_pure]; congr 2; funext i; exact i.elim0
    | succ n ih =>
      intro w
      have h1 : (Prog.rand : Prog (Vec D) Fl).run env w = (.ok (env.rng.rand w.rk), { w with rk := w.rk + 1 }) := rfl
      simp only [tabM, Prog.run_bind, h1, ih, Prog.run_pure]
      congr 2
      · funext i
        refine Fin.cases rfl (fun i => ?_) i
        show env.rng.rand (w.rk + 1 + i.1) = env.rng.rand (w.rk + (i.1 + 1))
        congr 1; omega
      · simp only [show w.rk + 1 + n = w.rk + (n + 1) by omega]
  exact key n w

/-- The first `k` random numbers of the generator are different from each other. -/
def Distinct (env : Env (Vec D)) (k : ℕ) : Prop := ∀ i j, i < k → j < k → env.rng.rand i = env.rng.rand j → i = j

omit [Arith] in
/-- A candidate is new if the random numbers are. -/
theorem candidate_inj (fn : Fn → Fl → Fl) {lo hi : ℚ} (h : lo < hi) {a b : Fl} (ha : Fl.fin 0 ≤ a ∧ a < Fl.fin 1) (hb : Fl.fin 0 ≤ b ∧ b < Fl.fin 1) :
    letI := exactArith fn; (Fl.fin lo + a * (Fl.fin hi - Fl.fin lo) : Fl) = Fl.fin lo + b * (Fl.fin hi - Fl.fin lo) → a = b := by
  letI := exactArith fn
  intro e
  cases a <;> cases b <;> simp at ha hb
  rw [Exact.sub_fin, Exact.mul_fin, Exact.mul_fin, Exact.add_fin, Exact.add_fin, Fl.fin.injEq] at e
  have : (hi - lo) ≠ 0 := by linarith
  congr 1
  exact mul_right_cancel₀ this (by linarith)

omit [Arith] in
/-- All candidates are found at the first attempt. -/
theorem run_generate (fn : Fn → Fl → Fl) {lo hi : ℚ} {i : Fin D} (hl : B.lo i = .fin lo) (hh : B.hi i = .fin hi) (h : lo < hi) {k : ℕ} (hd : Distinct env k)
    (lf n : ℕ) (w : World (Vec D)) (l : List (Vec D)) (hk : w.rk + n * D ≤ k) :
    letI := exactArith fn
    (∀ x ∈ l, ∃ m < w.rk, x i = Fl.fin lo + env.rng.rand m * (Fl.fin hi - Fl.fin lo)) →
    ∃ l', (forFin n (fun _ l => do
      let x ← fresh B l (lf + 1)
      return l ++ [x]) l : Prog (Vec D) _).run env w = (.ok l', { w with rk := w.rk + n * D }) ∧ l'.length = l.length + n := by
  letI := exactArith fn
  induction n generalizing w l with
  | zero => intro _; exact ⟨l, by simp [forFin], rfl⟩
  | succ n ih =>
    intro hx
    have hD : 0 < D := i.pos
    have h1 : (fresh B l (lf + 1)).run env w = (.ok fun j => B.lo j + env.rng.rand (w.rk + j) * (B.hi j - B.lo j), { w with rk := w.rk + D }) := by
      simp only [fresh, sample, Prog.bind_def, Prog.run_bind, run_randVec, Prog.pure_def, Prog.run_pure]
      rw [if_neg]
      · rfl
      · intro ha
        obtain ⟨x, hxl, hs⟩ := List.any_eq_true.1 ha
        obtain ⟨m, hm, e⟩ := hx x hxl
        have := List.all_eq_true.1 hs i (List.mem_finRange i)
        have e2 : x i = B.lo i + env.rng.rand (w.rk + i) * (B.hi i - B.lo i) := by
          simp only [Fl.eqB, Bool.and_eq_true, decide_eq_true_eq] at this
          exact this.1
        rw [e, hl, hh] at e2
        have e3 := candidate_inj fn h (env.rng.rand_mem m) (env.rng.rand_mem _) e2
        have hik : w.rk + i.1 < k := by
          have := i.2
          rw [Nat.succ_mul] at hk
          omega
        have := hd _ _ (by omega) hik e3
        omega
    simp only [forFin, Prog.bind_def, Prog.run_bind, h1, Prog.pure_def, Prog.run_pure]
    obtain ⟨l', e, hl'⟩ := ih { w with rk := w.rk + D } (l ++ [fun j => B.lo j + env.rng.rand (w.rk + j) * (B.hi j - B.lo j)])
      (by rw [Nat.succ_mul] at hk; simp only; omega) (by
        intro x hxm
        rcases List.mem_append.1 hxm with hm | hm
        · obtain ⟨m, h2, h3⟩ := hx x hm
          exact ⟨m, by simp only; omega, h3⟩
        · cases List.mem_singleton.1 hm
          exact ⟨w.rk + i, by simp only; have := i.2; omega, by simp only [hl, hh]⟩)
    refine ⟨l', ?_, by simp at hl'; omega⟩
    simp only [Prog.bind_def, Prog.pure_def] at e
    rw [e]
    congr 2
    rw [Nat.succ_mul]; omega

omit [Arith] in
/-- **C57, C71, what holds**: in exact arithmetic, on a box with positive width in some coordinate, random search with `max_iters = m` or `max_evals = m`
returns a solution if the first `m * D` random numbers differ. -/
theorem C57_rs_partial (fn : Fn → Fl → Fl) {lo hi : ℚ} {i : Fin D} (hl : B.lo i = .fin lo) (hh : B.hi i = .fin hi) (h : lo < hi) (hE : env.Calm) (hc : env.Polite)
    (m : ℕ) (h0 : 0 < m) (hm : env.maxIters = some m ∨ (env.maxIters = none ∧ env.maxEvals = some m)) (hd : Distinct env (m * D)) (lf : ℕ) (main : Bool)
    (ncb fuel : ℕ) (hf : m < fuel) : letI := exactArith fn; ∃ res, ((alg B (lf + 1)).exec env main ncb fuel).1 = .ok ⟨some res, none⟩ := by
  letI := exactArith fn
  have hS : (alg B (lf + 1)).SureWhile env := by
    refine ⟨fun s _ _ => (One.ext s : List (Vec D)).length = m, fun w hw => ?_, fun s xb fxb w hs hst => ?_⟩
    · obtain ⟨l, h1, h2⟩ := run_generate fn hl hh h hd lf m w [] (by omega) nofun
      have ht : ∀ v : TaskView, v.maxIters = env.maxIters → v.maxEvals = env.maxEvals → total v = m := by
        intro v e1 e2
        rcases hm with hm | ⟨hm, hm'⟩
        · simp [total, e1, hm]
        · simp [total, e1, e2, hm, hm']
      have hne : l ≠ [] := by intro e; simp [e] at h2; omega
      obtain ⟨f, w', h3, h4⟩ := (Sure.eval hE (x := l.head hne)).out { w with rk := w.rk + m * D }
      refine ⟨⟨l.getLast hne, f, l⟩, w', ?_, ⟨by simp [alg], rfl, by simpa [alg] using h4⟩, fun _ _ _ => by simpa using h2⟩
      show (init B (lf + 1)).run env w = _
      simp only [init, Prog.bind_def, Prog.run_bind, Prog.run_look]
      rw [ht _ rfl rfl, generate, h1]
      simp only [List.head?_eq_some_head hne, List.getLast?_eq_some_getLast hne, Prog.run_bind, h3, Prog.pure_def, Prog.run_pure]
      rfl
    · have hlt : (if env.maxIters.isSome then w.st.iters else w.st.evals) < (One.ext s : List (Vec D)).length := by
        rw [hs]
        rcases hm with hm | ⟨hm, hm'⟩
        · rw [hm]; exact iters_lt hst hm
        · rw [hm]
          simp only [stoppingCondition, hm', reached, Bool.or_eq_false_iff, decide_eq_false_iff_not] at hst
          simp only [Option.isSome_none, Bool.false_eq_true, if_false]
          omega
      obtain ⟨f, w', h3, h4⟩ := (Sure.eval hE (x := (One.ext s : List (Vec D))[if env.maxIters.isSome then w.st.iters else w.st.evals])).out w
      refine ⟨((⟨(One.ext s : List (Vec D))[if env.maxIters.isSome then w.st.iters else w.st.evals], f, One.ext s⟩ : St D), getBest1 (One.ext s : List (Vec D))[if env.maxIters.isSome then w.st.iters else w.st.evals] f xb fxb), w', ?_, ?_⟩
      · show (iter s xb fxb).run env w = _
        simp only [iter, Prog.bind_def, Prog.run_bind, Prog.run_look, List.getElem?_eq_getElem hlt, h3, Prog.pure_def, Prog.run_pure]
        rfl
      · exact fun _ => hs
  refine hS.exec hc m ?_ main ncb fuel hf
  rcases hm with hm | ⟨hm, hm'⟩
  · exact Or.inl hm
  · refine Or.inr ⟨hm', fun s xb fxb w r w' hst hr => ?_⟩
    change (iter s xb fxb).run env w = _ at hr
    simp only [iter, Prog.bind_def, Prog.run_bind, Prog.run_look] at hr
    split at hr
    · cases hr
    · rw [Prog.run_bind, Prog.run_eval] at hr
      rcases evalTask_cases env.toTaskCfg w.st ‹_› with ⟨h1, -⟩ | ⟨-, e, -, h1⟩ | ⟨-, v, -, h1⟩
      · rw [h1] at hst; cases hst
      · rw [h1] at hr; cases hr
      · rw [h1] at hr
        cases congrArg Prod.snd hr
        simp

/-- Random numbers 1/2, 1/3, 1/4, ... -/
def Ex.rng : Rng := { (NiaPy.Ex.env2 (D := 2) 0).rng with
  rand := fun k => .fin (1 / (k + 2))
  rand_le := fun k => by
    have h : (0 : ℚ) < k + 2 := by positivity
    have h2 : (1 : ℚ) / (k + 2) ≤ 1 / 2 := by
      rw [div_le_div_iff₀ h (by norm_num)]
      have : (0 : ℚ) ≤ k := by positivity
      linarith
    constructor
    · exact (Fl.fin_le_fin _ _).2 (by positivity)
    · exact (Fl.fin_le_fin _ _).2 (h2.trans (by norm_num)) }

/-- A budget of `m` evaluations with these random numbers. -/
def Ex.envD (m : ℕ) : Env (Vec 2) := { NiaPy.Ex.env2 0 (some m) with rng := Ex.rng, maxIters := none }

omit [Arith] in
/-- The hypotheses of `C57_rs_partial` hold, with any number of evaluations. -/
example (m : ℕ) (h : 0 < m) : ∃ res, ((@alg (exactArith fun _ x => x) 2 (NiaPy.Ex.box 2) 1).exec (Ex.envD m) true 0 (m + 1)).1 = .ok ⟨some res, none⟩ :=
  C57_rs_partial (env := Ex.envD m) (lo := -2) (hi := 2) (i := 0) _ rfl rfl (by norm_num) (NiaPy.Ex.env2_calm 0 (some m)) (NiaPy.Ex.env2_polite 0 (some m)) m h (Or.inr ⟨rfl, rfl⟩)
    (fun i j _ _ e => by
      have e : Fl.fin (1 / ((i : ℚ) + 2)) = Fl.fin (1 / ((j : ℚ) + 2)) := e
      rw [Fl.fin.injEq, one_div, one_div, inv_inj] at e
      exact_mod_cast add_right_cancel e) 0 true 0 _ (by omega)

end RS

/-! ### Fireworks algorithms -/

section
omit [Arith]

/-- A run that ends, or is cut off by the bound on the rounds of the main loop. -/
theorem Alg.SureWhile.returns {A : Alg X} (h : A.SureWhile envX) (hc : envX.Polite) (main : Bool) (ncb fuel : ℕ)
    (hf : (A.exec envX main ncb fuel).1 ≠ .error .outOfFuel) : ∃ res, (A.exec envX main ncb fuel).1 = .ok ⟨some res, none⟩ := by
  obtain ⟨Inv, h0, hi⟩ := h
  have hloop : ∀ fuel s xb fxb (w : World X), (stoppingCondition envX.toTaskCfg w.st = false → Inv s xb fxb) →
      (∃ r w', (A.loop ncb fuel s xb fxb).run envX w = (.ok r, w')) ∨ ∃ w', (A.loop ncb fuel s xb fxb).run envX w = (.error .outOfFuel, w') := by
    intro fuel
    induction fuel with
    | zero => exact fun _ _ _ w _ => Or.inr ⟨w, rfl⟩
    | succ fuel ih =>
      intro s xb fxb w hs
      simp only [Alg.loop, Prog.bind_def, Prog.run_bind, Prog.run_look]
      by_cases hst : stoppingCondition envX.toTaskCfg w.st = true
      · exact Or.inl ⟨(s, xb, fxb), w, by simp only [hst, if_true]; rfl⟩
      have hst' : stoppingCondition envX.toTaskCfg w.st = false := by simpa using hst
      simp only [hst]
      simp only [Bool.false_eq_true, if_false, Prog.run_bind]
      obtain ⟨_, w1, h1, -⟩ := (NiaPy.Sure.fireAll hc ncb (.beforeIteration (A.pop s) (A.fit s) xb fxb)).out w
      have m1 := fireAll_st envX ncb (.beforeIteration (A.pop s) (A.fit s) xb fxb) w
      rw [h1] at m1 ⊢
      simp only at m1 ⊢
      obtain ⟨r, w2, h2, hr⟩ := hi s xb fxb w1 (hs hst') (by rw [m1]; exact hst')
      rw [h2]
      obtain ⟨_, w3, h3, -⟩ := (NiaPy.Sure.fireAll hc ncb (.afterIteration (A.pop r.1) (A.fit r.1) r.2.1 r.2.2)).out w2
      have m3 := fireAll_st envX ncb (.afterIteration (A.pop r.1) (A.fit r.1) r.2.1 r.2.2) w2
      simp only
      rw [h3] at m3 ⊢
      simp only [Prog.run_next] at m3 ⊢
      exact ih _ _ _ _ (fun h => hr (by simp only [m3] at h; exact stopping_next h))
  rw [exec_eq] at hf ⊢
  simp only at hf ⊢
  have hbody : (∃ r, (A.execBody envX ncb fuel).1 = .ok r) ∨ (A.execBody envX ncb fuel).1 = .error .outOfFuel := by
    simp only [Alg.execBody, Alg.body, Prog.bind_def, Prog.run_bind]
    obtain ⟨_, w1, h1, -⟩ := (NiaPy.Sure.fireAll hc ncb .beforeRun).out (World.init envX.opt)
    have r1 := fireAll_rk envX ncb .beforeRun (World.init envX.opt)
    rw [h1] at r1 ⊢
    obtain ⟨s, w2, h2, ⟨k1, k2, k3⟩, hs⟩ := h0 w1 r1
    simp only
    rw [h2]
    obtain ⟨b, hb⟩ := getBest_first k1 k2 k3
    simp only [hb]
    have e : (Prog.ofExcept (.ok b) : Prog X (X × Fl)).run envX w2 = (.ok b, w2) := rfl
    rw [e]
    simp only
    rcases hloop fuel s b.1 b.2 w2 (fun h => hs h b hb) with ⟨r, w3, h3⟩ | ⟨w3, h3⟩ <;> rw [h3]
    · obtain ⟨_, w4, h4, -⟩ := (NiaPy.Sure.fireAll hc ncb .afterRun).out w3
      simp only
      rw [h4]
      exact Or.inl ⟨r, rfl⟩
    · exact Or.inr rfl
  rcases hbody with ⟨r, hr⟩ | hr <;> rw [hr] at hf ⊢
  · exact ⟨_, rfl⟩
  · simp at hf

theorem Sure.argminRec {val : α → Fl} {l : List α} (hl : l ≠ []) : Sure envX (NiaPy.argminRec val l : Prog X α) fun a =>
    a ∈ l ∧ ((∀ e ∈ l, val e ≠ .nan) → ∀ e ∈ l, val a ≤ val e) := ⟨fun w => by
  obtain ⟨a, w', h⟩ : ∃ a w', (NiaPy.argminRec val l : Prog X α).run envX w = (.ok a, w') := by
    unfold NiaPy.argminRec
    obtain ⟨i, h1, h2⟩ := Total.argmin_ok (l := l.map val) (by simpa using hl)
    rw [h1]
    simp only [List.length_map] at h2
    simp only [List.getElem?_eq_getElem h2]
    exact ⟨_, _, rfl⟩
  rcases (Total.argminRec (env := envX) (val := val) hl).out w with h1 | ⟨w'', h1⟩
  · exact h1
  · rw [h] at h1; cases h1⟩

/-- A task that has stopped stays stopped. -/
theorem stopped_mono {p : Prog X α} {w : World X} (h : stoppingCondition envX.toTaskCfg (p.run envX w).2.st = false) :
    stoppingCondition envX.toTaskCfg w.st = false := by
  have := run_relation envX (fun a b => stoppingCondition envX.toTaskCfg a.st = true → stoppingCondition envX.toTaskCfg b.st = true) (fun _ => id)
    (fun _ _ _ h h' => h' ∘ h) (fun w o => by
      intro hw
      cases o <;> simp only [stepOp]
      case eval x =>
        rcases evalTask_cases envX.toTaskCfg w.st x with ⟨-, h⟩ | ⟨h', -⟩ | ⟨h', -⟩
        · simpa [h] using hw
        · rw [h'] at hw; cases hw
        · rw [h'] at hw; cases hw
      case nextIter =>
        cases hn : stoppingCondition envX.toTaskCfg (nextIter w.st) with
        | true => rfl
        | false => rw [stopping_next hn] at hw; cases hw
      case repair s x => cases s <;> exact hw
      all_goals first | exact hw | (split <;> exact hw)) p w
  cases hw : stoppingCondition envX.toTaskCfg w.st with
  | false => rfl
  | true => rw [this hw] at h; cases h

/-- `p` returns, what it returns satisfies `P`, and also `Q` if the task has not stopped until then. -/
structure Live (env : Env X) (p : Prog X α) (P Q : α → Prop) : Prop where
  out : ∀ w, ∃ a w', p.run env w = (.ok a, w') ∧ P a ∧ (stoppingCondition env.toTaskCfg w'.st = false → Q a)

namespace Live

theorem of {p : Prog X α} {P : α → Prop} (h : Sure envX p P) : Live envX p P P := ⟨fun w => by
  obtain ⟨a, w', h1, h2⟩ := h.out w
  exact ⟨a, w', h1, h2, fun _ => h2⟩⟩

theorem mono {p : Prog X α} {P P' Q Q' : α → Prop} (h : Live envX p P Q) (hP : ∀ a, P a → P' a) (hQ : ∀ a, P a → Q a → Q' a) : Live envX p P' Q' := ⟨fun w => by
  obtain ⟨a, w', h1, h2, h3⟩ := h.out w
  exact ⟨a, w', h1, hP a h2, fun hs => hQ a h2 (h3 hs)⟩⟩

theorem pure' {a : α} {P Q : α → Prop} (hP : P a) (hQ : Q a) : Live envX (Pure.pure a) P Q := ⟨fun w => ⟨a, w, rfl, hP, fun _ => hQ⟩⟩

theorem bind {p : Prog X α} {f : α → Prog X β} {P Q : α → Prop} {P' Q' : β → Prop} (hp : Live envX p P Q)
    (hf : ∀ a, P a → Live envX (f a) P' fun b => Q a → Q' b) : Live envX (p.bind f) P' Q' := ⟨fun w => by
  obtain ⟨a, w1, h1, h2, h3⟩ := hp.out w
  obtain ⟨b, w2, h4, h5, h6⟩ := (hf a h2).out w1
  refine ⟨b, w2, by rw [Prog.run_bind, h1]; exact h4, h5, fun hs => h6 hs (h3 (stopped_mono (p := f a) ?_))⟩
  rw [h4]; exact hs⟩

theorem bind' {p : Prog X α} {f : α → Prog X β} {P Q : α → Prop} {P' Q' : β → Prop} (hp : Live envX p P Q)
    (hf : ∀ a, P a → Live envX (f a) P' fun b => Q a → Q' b) : Live envX (p >>= f) P' Q' := hp.bind hf

/-- A value that does not depend on the task. -/
theorem bindS {p : Prog X α} {f : α → Prog X β} {P : α → Prop} {P' Q' : β → Prop} (hp : Sure envX p P)
    (hf : ∀ a, P a → Live envX (f a) P' Q') : Live envX (p >>= f) P' Q' :=
  (of hp).bind fun a ha => (hf a ha).mono (fun _ h => h) fun _ _ h _ => h

/-- An objective with finite values: infinity is returned only by a task that has stopped. -/
theorem eval (hE : envX.Calm) (hF : ∀ k x r, envX.obj k x = .ok r → ∃ q, r = .fin q) {x : X} :
    Live envX (Prog.eval x) (fun v => MTS.Fi v ∨ v = .pinf) MTS.Fi := ⟨fun w => by
  rw [Prog.run_eval]
  rcases evalTask_cases envX.toTaskCfg w.st x with ⟨h, h1⟩ | ⟨-, e, h, -⟩ | ⟨-, r, h, h1⟩
  · rw [h1]
    exact ⟨_, _, rfl, Or.inr rfl, fun h' => by simp only at h'; rw [h] at h'; cases h'⟩
  · obtain ⟨r, hr, -⟩ := hE w.st.evals x
    rw [h] at hr; cases hr
  · rw [h1]
    obtain ⟨q, rfl⟩ := hF _ _ _ h
    have : MTS.Fi (envX.opt.mul (.fin q)) := by cases envX.opt <;> exact ⟨_, rfl⟩
    exact ⟨_, _, rfl, Or.inl this, fun _ => this⟩⟩

theorem tabM {n : ℕ} {f : Fin n → Prog X α} {P Q : Fin n → α → Prop} (h : ∀ i, Live envX (f i) (P i) (Q i)) :
    Live envX (NiaPy.tabM n f) (fun r => ∀ i, P i (r i)) fun r => ∀ i, Q i (r i) := by
  induction n with
  | zero => exact pure' (fun i => i.elim0) fun i => i.elim0
  | succ n ih =>
    refine bind (h 0) fun a ha => bind (ih fun i => h i.succ) fun r hr => pure' (fun i => ?_) fun hQ h0 i => ?_
    · exact Fin.cases ha hr i
    · exact Fin.cases h0 hQ i

theorem mapMAll {γ : Type} {l : List γ} {f : γ → Prog X α} {P Q : α → Prop} (h : ∀ b ∈ l, Live envX (f b) P Q) :
    Live envX (NiaPy.mapM' l f) (fun r => (∀ x ∈ r, P x) ∧ r.length = l.length) fun r => ∀ x ∈ r, Q x := by
  induction l with
  | nil => exact pure' ⟨fun _ h => by simp at h, rfl⟩ fun _ h => by simp at h
  | cons b l ih =>
    refine bind (h b (by simp)) fun a ha => bind (ih fun b hb => h b (by simp [hb])) fun r hr => pure' ⟨fun x hx => ?_, by simp [hr.2]⟩ fun hQ h0 x hx => ?_
    · rcases List.mem_cons.1 hx with rfl | hx
      · exact ha
      · exact hr.1 x hx
    · rcases List.mem_cons.1 hx with rfl | hx
      · exact h0
      · exact hQ x hx

theorem evalRecs (hE : envX.Calm) (hF : ∀ k x r, envX.obj k x = .ok r → ∃ q, r = .fin q) {l : List X} (hl : l ≠ []) :
    Live envX (NiaPy.evalRecs l) (fun r => (∀ e ∈ r, MTS.Fi e.2 ∨ e.2 = .pinf) ∧ r.length = l.length) fun r => ∀ e ∈ r, MTS.Fi e.2 := by
  unfold NiaPy.evalRecs
  rw [if_neg (by simpa using hl)]
  exact mapMAll (P := fun e : X × Fl => MTS.Fi e.2 ∨ e.2 = .pinf) (Q := fun e => MTS.Fi e.2) fun x _ => bind' (eval hE hF) fun v hv => pure' hv id

end Live

end

namespace FWA
open MTS SHADE

/-- A finite number that is not negative. -/
def NN (v : Fl) : Prop := ∃ q : ℚ, 0 ≤ q ∧ v = .fin q

omit [Arith] in
theorem NN.fi {v : Fl} (h : NN v) : Fi v := by obtain ⟨q, -, h⟩ := h; exact ⟨q, h⟩

theorem NN.mul (hA : ExactArith) {a b : Fl} (ha : NN a) (hb : NN b) : NN (a * b) := by
  obtain ⟨p, hp, rfl⟩ := ha; obtain ⟨q, hq, rfl⟩ := hb; exact ⟨_, mul_nonneg hp hq, hA.mul p q⟩

theorem NN.add (hA : ExactArith) {a b : Fl} (ha : NN a) (hb : NN b) : NN (a + b) := by
  obtain ⟨p, hp, rfl⟩ := ha; obtain ⟨q, hq, rfl⟩ := hb; exact ⟨_, add_nonneg hp hq, hA.add p q⟩

omit [Arith] in
theorem NN.ofNat (n : ℕ) : NN (Fl.ofNat n) := ⟨n, by positivity, rfl⟩

theorem vsum_nn (hA : ExactArith) {n : ℕ} {f : Fin n → Fl} (h : ∀ i, NN (f i)) : NN (vsum f) := by
  have key : ∀ (l : List Fl) (a : Fl), NN a → (∀ v ∈ l, NN v) → NN (l.foldl (· + ·) a) := by
    intro l
    induction l with
    | nil => exact fun a ha _ => ha
    | cons v l ih => exact fun a ha hl => ih _ (.add hA ha (hl v (by simp))) fun u hu => hl u (by simp [hu])
  exact key _ _ ⟨0, le_rfl, rfl⟩ fun v hv => by
    obtain ⟨i, rfl⟩ := List.mem_ofFn.1 hv
    exact h i

/-- The parameters of the bare-bones fireworks algorithm that make sense. -/
structure BBPar.Fits (p : BBPar) : Prop where
  num : 0 < p.num
  up : NN p.up
  down : NN p.down

/-- The bare-bones fireworks algorithm. -/
theorem bb_sure (hE : env.Calm) (hB : B.Proper) (hT : Tame env) {p : BBPar} (hp : p.Fits) : (bbAlg B p).SureWhile env := by
  have hA := hT.exact
  refine ⟨fun (s : BBSt D) _ _ => ASO.Finite s.x ∧ ∀ j, NN (s.amp j), fun w _ => ?_, fun s xb fxb w hs hst => ?_⟩
  · have key : Sure env (bbInit B) fun s => (ASO.Finite s.x ∧ ∀ j, NN (s.amp j)) ∧ s.f ≠ .nan := by
      unfold bbInit defaultNumpyInit
      refine .bind' (P := fun r : (Fin 1 → Vec D) × (Fin 1 → Fl) => (∀ i, ASO.Finite (r.1 i)) ∧ ∀ i, r.2 i ≠ .nan) ?_ fun r hr => .pure' ⟨⟨hr.1 0, fun j => ?_⟩, hr.2 0⟩
      · refine .bind' (.tabM (P := fun _ (x : Vec D) => ASO.Finite x) fun _ => (Sure.tabM fun i => .unif (hB i)).mono fun x hx => finite_unif hB hx) fun pop hpop => ?_
        rw [if_neg (by omega)]
        exact .bind' (.tabM fun i => .eval hE) fun fs hfs => .pure' ⟨hpop, hfs⟩
      · obtain ⟨l, u, hl, hu⟩ := proper_fin hB j
        have := hB j
        rw [hl, hu] at this
        simp only [unifErr] at this
        show NN (B.hi j - B.lo j)
        rw [hl, hu, hA.sub]
        split at this
        · exact ⟨u - l, by linarith, rfl⟩
        · cases this
    obtain ⟨s, w', h1, h2, h3⟩ := key.out w
    exact ⟨s, w', h1, ⟨by simp [bbAlg], rfl, by simpa [bbAlg] using h3⟩, fun _ _ _ => h2⟩
  · have key : ∀ s : BBSt D, (ASO.Finite s.x ∧ ∀ j, NN (s.amp j)) → Sure env (bbIter p s xb fxb) fun r => ASO.Finite r.1.x ∧ ∀ j, NN (r.1.amp j) := by
      intro s hs
      unfold bbIter
      refine .bind' (.tabM (P := fun _ (x : Vec D) => ASO.Finite x) fun _ => (Sure.tabM (P := fun _ v => Fi v) fun j => ?_)) fun ys hys => ?_
      · obtain ⟨q, hq⟩ := hs.1 j
        obtain ⟨a, ha, hj⟩ := hs.2 j
        simp only [hq, hj, hA.sub, hA.add]
        refine (Sure.unif ?_).mono fun v hv => fin_between hv
        simp only [unifErr]
        rw [if_pos (by linarith)]
      · refine .bind' (P := fun xs : Fin p.num → Vec D => ∀ i, ASO.Finite (xs i)) (.tabM fun i => .repair fun r k => hT.rep r k _ (hys i)) fun xs hxs => ?_
        refine .bind' (.evalRows hE hp.num) fun fs _ => .bind' (P := fun _ => True) ?_ fun i _ => ?_
        · have := hp.num
          exact (Sure.argminRec (by simp only [ne_eq, List.finRange_eq_nil_iff]; omega)).mono fun _ _ => trivial
        · refine .pure' ?_
          split
          · exact ⟨hxs i, fun j => .mul hA hp.up (hs.2 j)⟩
          · exact ⟨hs.1, fun j => .mul hA hp.down (hs.2 j)⟩
    obtain ⟨r, w', h1, h2⟩ := (key s hs).out w
    exact ⟨r, w', h1, fun _ => h2⟩

/-- **C71, bare-bones fireworks algorithm** (without rounding). -/
theorem C71_bbfwa (hE : env.Calm) (hc : env.Polite) (hB : B.Proper) (hT : Tame env) {p : BBPar} (hp : p.Fits) (m : ℕ)
    (hm : env.maxIters = some m ∨ env.maxEvals = some m) (main : Bool) (ncb fuel : ℕ) (hf : m < fuel) :
    ∃ res, ((bbAlg B p).exec env main ncb fuel).1 = .ok ⟨some res, none⟩ := by
  refine (bb_sure hE hB hT hp).returns hc main ncb fuel ?_
  rcases hm with hm | hm
  · exact (C17_max_iters (opt := .minimization) (.bbfwa (B := B) p) env (hE.noFuel hc) m hm main ncb fuel hf).1
  · exact C17_max_evals (opt := .minimization) (.bbfwa (B := B) p) hp.num env (hE.noFuel hc) m hm main ncb fuel hf

/-- The values an objective may return: finite ones. -/
def Tells (env : Env (Vec D)) : Prop := ∀ k x r, env.obj k x = .ok r → ∃ q, r = .fin q

/-- The parameters of the other fireworks algorithms that make sense. -/
structure Par.Fits (p : Par) (N : ℕ) : Prop where
  a : NN p.a
  gauss : p.gauss ≤ N

theorem round_nn (hR : RoundLaw) {v : Fl} (h : NN v) : 0 ≤ toInt (Arith.fn .round v) := by
  obtain ⟨q, hq, rfl⟩ := h
  obtain ⟨r, hm, hi, hr⟩ := hR
  have : (0 : ℤ) ≤ r q := by
    have h0 := hi 0
    rw [← h0]
    exact hm (by simpa using hq)
  rw [hr]
  simp only [toInt]
  rw [if_pos (by exact_mod_cast this)]
  exact Int.floor_nonneg.2 (by exact_mod_cast this)

omit [Arith] in
theorem sure_max (hN : 0 < N) {fit : Fin N → Fl} {g : Fin N → ℚ} (hf : ∀ i, fit i = .fin (g i)) :
    Sure env (argmaxIdx fit) fun i => ∀ j, g j ≤ g i :=
  (Sure.argminRec (by simp only [ne_eq, List.finRange_eq_nil_iff]; omega)).mono fun i hi j => by
    have := hi.2 (fun e _ => by simp [hf]) j (List.mem_finRange j)
    simp only [hf, Fl.neg_fin, Fl.fin_le_fin] at this
    linarith

omit [Arith] in
theorem eps_fin : eps = .fin (1 / 4503599627370496) := by
  simp [eps, lit]

omit [Arith] in
theorem fin_between_lt {a : ℚ} {b : Fl} (h1 : Fl.fin a < b) (h2 : b < 1) : ∃ q, a < q ∧ b = .fin q := by
  cases b with
  | fin q => exact ⟨q, (Fl.fin_lt_fin _ _).1 h1, rfl⟩
  | nan => exact absurd h1 Bool.false_ne_true
  | pinf => exact absurd h2 Bool.false_ne_true
  | ninf => exact absurd h1 Bool.false_ne_true

/-- The number of sparks of each firework is not negative. -/
theorem sure_sparksNum (hA : ExactArith) (hR : RoundLaw) (hN : 0 < N) {p : Par} (ha : NN p.a) {fit : Fin N → Fl} (hf : ∀ i, Fi (fit i)) :
    Sure env (sparksNum p fit) fun n => ∀ i, 0 ≤ n i := by
  choose g hg using hf
  unfold sparksNum
  refine .bind' (sure_max hN hg) fun iw hw => .pure' fun i => ?_
  have hd : ∀ i, NN (fit iw - fit i) := fun i => by
    rw [hg, hg, hA.sub]
    exact ⟨_, by linarith [hw i], rfl⟩
  obtain ⟨t, ht, e⟩ := vsum_nn hA hd
  beta_reduce
  have hb := NN.mul hA ha (NN.ofNat p.num)
  split
  · exact round_nn hR hb
  · split <;> refine round_nn hR ?_
    · rename_i h
      obtain ⟨a, ha, ea⟩ := ha
      rw [ea] at h
      obtain ⟨b, hab, eb⟩ := fin_between_lt h.2.1 h.2.2
      rw [eb]
      exact .mul hA ⟨b, by linarith, rfl⟩ (.ofNat _)
    · obtain ⟨d, hd, ed⟩ := NN.mul hA (NN.ofNat p.num) (NN.add hA (hd i) (b := eps) ⟨_, by positivity, eps_fin⟩)
      rw [ed, e, eps_fin, hA.add, hA.div _ _ (by positivity)]
      exact ⟨_, by positivity, rfl⟩

theorem sure_amplitudes (hN : 0 < N) {p : Par} {fit : Fin N → Fl} : Sure env (amplitudes p fit) fun _ => True :=
  .bind' (Sure.argminRec (by simp only [ne_eq, List.finRange_eq_nil_iff]; omega)) fun _ _ => .pure' trivial

omit [Arith] in
theorem sure_someCoords (hE : env.Calm) (hc : env.Polite) (hD : 0 < D) : Sure env (someCoords D) fun _ => True := by
  refine .quiet (hE.noFuel hc) ?_ fun C => ?_
  · exact .bindT (.intFin hD) fun m => .bindT (Total.choiceFin m.2.le).ends fun _ => .pure' trivial
  · unfold someCoords; yields

omit [Arith] in
theorem sure_one (lo hi : ℚ) (h : lo ≤ hi) : Sure env (Prog.unif (.fin lo) (.fin hi) : Prog (Vec D) Fl) fun _ => True :=
  (Sure.unif (by simp [unifErr, h])).mono fun _ _ => trivial

theorem sure_explodeE (hE : env.Calm) (hc : env.Polite) (hD : 0 < D) (amp x : Vec D) : Sure env (explodeE amp x) fun _ => True :=
  .bind' (sure_someCoords hE hc hD) fun z _ => .bind' (.tabM fun _ => sure_one (-1) 1 (by norm_num)) fun _ _ => .pure' trivial

omit [Arith] in
theorem sure_mapRand (hB : B.Proper) (x : Vec D) : Sure env (mapRand B x) fun _ => True :=
  (Sure.tabM (P := fun _ _ => True) fun j => .ite (fun _ => (Sure.unif (hB j)).mono fun _ _ => trivial) fun _ => .pure' trivial).mono fun _ _ => trivial

theorem sure_gaussianE (hE : env.Calm) (hc : env.Polite) (hD : 0 < D) (xb x : Vec D) : Sure env (gaussianE xb x) fun _ => True :=
  .bind' (sure_someCoords hE hc hD) fun z _ => .bind' (.quiet (hE.noFuel hc) Total.norm1 fun C => by yields) fun _ _ => .pure' trivial

omit [Arith] in
theorem sure_explosions {expl : Fin N → Vec D → Prog (Vec D) (Vec D)} (he : ∀ i x, Sure env (expl i x) fun _ => True) {n : Fin N → ℤ} (hn : ∀ i, 0 ≤ n i)
    (pop : Fin N → Vec D) : Sure env (explosions expl n pop) fun l => N ≤ l.length := by
  unfold explosions
  rw [if_neg (by push Not; exact hn)]
  exact .bind' (.mapMAll fun i _ => he i (pop i)) fun l _ => .pure' (by simp)

omit [Arith] in
theorem sure_addGauss (hE : env.Calm) (hc : env.Polite) {gauss : Vec D → Prog (Vec D) (Vec D)} (hg : ∀ x, Sure env (gauss x) fun _ => True) {m : ℕ} {l : List (Vec D)}
    (h : m ≤ l.length) : Sure env (addGauss gauss m l) fun r => l.length ≤ r.length :=
  .bind' (.quiet (hE.noFuel hc) (Total.choiceFin h).ends fun C => by yields) fun idx _ => .bind' (.mapMAll fun x _ => hg x) fun gs _ => .pure' (by simp)

omit [Arith] in
theorem sure_pick (hE : env.Calm) (hc : env.Polite) {n : ℕ} (hn : 0 < n) : Sure env (intFin n : Prog (Vec D) (Fin n)) fun _ => True :=
  .quiet (hE.noFuel hc) (.intFin hn) fun C => by yields

omit [Arith] in
theorem fi_of_lt {v u : Fl} (hv : Fi v ∨ v = .pinf) (h : v < u) : Fi v := by
  rcases hv with h | rfl
  · exact h
  · cases u <;> exact absurd h Bool.false_ne_true

omit [Arith] in
theorem live_init (hE : env.Calm) (hB : B.Proper) (hF : Tells env) (hN : 0 < N) : Live env (defaultNumpyInit B N) (fun r => ∀ i, Fi (r.2 i) ∨ r.2 i = .pinf) fun r => ∀ i, Fi (r.2 i) := by
  unfold defaultNumpyInit
  refine .bindS (P := fun _ => True) ((Sure.tabM fun _ => Sure.tabM fun i => .unif (hB i)).mono fun _ _ => trivial) fun pop _ => ?_
  rw [if_neg (by omega)]
  exact .bind' (.tabM fun i => .eval hE hF) fun fs hfs => .pure' hfs id

omit [Arith] in
theorem live_selectionE (hE : env.Calm) (hc : env.Polite) (hF : Tells env) (s : St D N) {l : List (Vec D)} (hl : l ≠ []) :
    Live env (selectionE s l) (fun r => (∀ i, Fi (s.fit i)) → ∀ i, Fi (r.1.fit i)) fun _ => True := by
  unfold selectionE
  refine .bind' (.evalRecs hE hF hl) fun r hr => ?_
  have hne : r ≠ [] := by intro h; rw [h] at hr; exact hl (List.length_eq_zero_iff.1 hr.2.symm)
  have hpos := List.length_pos_iff.2 hne
  refine .bindS (Sure.argminRec hne) fun b hb => .bindS (P := fun new : Fin N → Vec D × Fl => ∀ i, Fi (s.fit i) → Fi (new i).2) (.tabM (P := fun i (e : Vec D × Fl) => Fi (s.fit i) → Fi e.2) fun i => .ite (fun _ => .pure' fun hi => ?_) fun _ =>
    .bind' (sure_pick hE hc hpos) fun k _ => .pure' fun hi => ?_) fun new hnew => .pure' (fun h i => hnew i (h i)) fun _ => trivial
  · split
    · exact fi_of_lt (hr.1 b hb.1) ‹_›
    · exact hi
  · split
    · exact fi_of_lt (hr.1 _ (List.get_mem ..)) ‹_›
    · exact hi

/-- The enhanced fireworks algorithm. -/
theorem sureE (hE : env.Calm) (hc : env.Polite) (hB : B.Proper) (hF : Tells env) (hA : ExactArith) (hR : RoundLaw) (hD : 0 < D) (hN : 0 < N) {p : Par} (hp : p.Fits N) (a0 a1 : Fl) :
    (algE B N p a0 a1).SureWhile env := by
  refine ⟨fun (s : St D N) _ _ => ∀ i, Fi (s.fit i), fun w _ => ?_, fun s xb fxb w hs hst => ?_⟩
  · have key : Live env (init B N) (fun s => ∀ i, Fi (s.fit i) ∨ s.fit i = .pinf) fun s => ∀ i, Fi (s.fit i) :=
      .bind' (live_init hE hB hF hN) fun r hr => .pure' hr id
    obtain ⟨s, w', h1, h2, h3⟩ := key.out w
    refine ⟨s, w', h1, first_arr hN fun i e => ?_, fun h _ _ => h3 h⟩
    rcases h2 i with ⟨q, h⟩ | h <;> rw [h] at e <;> cases e
  · have key : ∀ s : St D N, (∀ i, Fi (s.fit i)) → Live env (iterE B p a0 a1 s xb fxb) (fun r => ∀ i, Fi (r.1.fit i)) fun _ => True := by
      intro s hs
      unfold iterE
      refine .bindS (sure_sparksNum hA hR hN hp.a hs) fun n hn => .bindS (sure_amplitudes hN) fun amp _ => ?_
      refine .bindS (P := fun _ => True) ⟨fun w => ⟨_, _, rfl, trivial⟩⟩ fun v _ => ?_
      refine .bindS (sure_explosions (fun i x => .bind' (sure_explodeE hE hc hD _ _) fun y _ => sure_mapRand hB y) hn _) fun l hl => ?_
      refine .bindS (sure_addGauss hE hc (fun x => .bind' (sure_gaussianE hE hc hD _ _) fun y _ => sure_mapRand hB y) (hp.gauss.trans hl)) fun l' hl' => ?_
      exact (live_selectionE hE hc hF s (by intro h; rw [h, List.length_nil] at hl'; omega)).mono (fun r hr => hr hs) fun _ _ h => h
    obtain ⟨r, w', h1, h2, -⟩ := (key s hs).out w
    exact ⟨r, w', h1, fun _ => h2⟩

/-- **C71, enhanced fireworks algorithm** (without rounding; an objective with finite values). -/
theorem C71_efwa (hE : env.Calm) (hc : env.Polite) (hB : B.Proper) (hF : Tells env) (hA : ExactArith) (hR : RoundLaw) (hD : 0 < D) (hN : 0 < N) {p : Par} (hp : p.Fits N) (a0 a1 : Fl)
    (m : ℕ) (hm : env.maxIters = some m ∨ env.maxEvals = some m) (main : Bool) (ncb fuel : ℕ) (hf : m < fuel) :
    ∃ res, ((algE B N p a0 a1).exec env main ncb fuel).1 = .ok ⟨some res, none⟩ := by
  refine (sureE hE hc hB hF hA hR hD hN hp a0 a1).returns hc main ncb fuel ?_
  rcases hm with hm | hm
  · exact (C17_max_iters (opt := .minimization) (.efwa (B := B) N p a0 a1) env (hE.noFuel hc) m hm main ncb fuel hf).1
  · exact C17_max_evals (opt := .minimization) (.efwa (B := B) N p a0 a1) (by show 0 < N + p.gauss; omega) env (hE.noFuel hc) m hm main ncb fuel hf

/-- For the dynamic algorithms: there is at least one spark of the core firework. -/
structure Par.FitsD (p : Par) (N : ℕ) : Prop extends p.Fits N where
  num : 0 < p.num
  b : ∀ q, p.b = .fin q → p.a < p.b → 1 ≤ q * p.num

theorem round_pos (hR : RoundLaw) {q : ℚ} (h : 1 ≤ q) : ∃ v, DE.pyRound (.fin q) = .ok v ∧ 0 < toInt v := by
  obtain ⟨r, hm, hi, hr⟩ := hR
  have h1 : (1 : ℤ) ≤ r q := by
    have h1 := hi 1
    rw [← h1]
    exact hm (by simpa using h)
  refine ⟨.fin (r q), by simp only [DE.pyRound, hr], ?_⟩
  simp only [toInt]
  rw [if_pos (by exact_mod_cast (by omega : 0 ≤ r q)), Int.floor_intCast]
  omega

omit [Arith] in
theorem one_eq : (1 : Fl) = .fin 1 := Exact.one_fin

/-- The number of sparks of the core firework, if there is a firework that is not better than it. -/
theorem sure_coreNum (hA : ExactArith) (hR : RoundLaw) (hN : 0 < N) {p : Par} (hp : p.FitsD N) {fit : Fin N → Fl} (hf : ∀ i, Fi (fit i)) {fxb : Fl} (hx : Fi fxb)
    (hle : ∃ i, fxb ≤ fit i) : Sure env (coreNum p fit fxb) fun n => 0 < n := by
  choose g hg using hf
  obtain ⟨x, rfl⟩ := hx
  obtain ⟨k, hk⟩ := hle
  rw [hg, Fl.fin_le_fin] at hk
  unfold coreNum
  refine .bind' (sure_max hN hg) fun iw hw => .bind' (sure_max (g := fun i => g i - x) hN fun i => by rw [hg, hA.sub]) fun id hid => ?_
  have e : g iw = g id := le_antisymm (by linarith [hid iw]) (hw id)
  have hpos : (0 : ℚ) < g id - x + 1 / 4503599627370496 := by
    have := hid k
    have : (0 : ℚ) < 1 / 4503599627370496 := by positivity
    linarith
  have hnum : (1 : ℚ) ≤ p.num := by exact_mod_cast hp.num
  have hn : Fl.ofNat p.num * (fit iw - .fin x + eps) / (fit id - .fin x + eps) = .fin p.num := by
    rw [hg, hg, e, hA.sub, eps_fin, hA.add, Exact.ofNat_fin, hA.mul, hA.div _ _ hpos.ne', mul_div_assoc, div_self hpos.ne', mul_one]
  obtain ⟨a, ha, ea⟩ := hp.a
  refine .bind' (P := fun v => 0 < toInt v) (.ofExcept ?_) fun r hr => .pure' hr
  rw [hn, ea, Exact.ofNat_fin, hA.mul]
  split
  · rename_i h
    rw [Fl.fin_lt_fin] at h
    exact round_pos hR (by linarith)
  · split
    · rename_i h
      obtain ⟨b, hab, eb⟩ := fin_between_lt h.2.1 h.2.2
      rw [eb, hA.mul]
      exact round_pos hR (hp.b b eb (by rw [ea]; exact h.2.1))
    · exact round_pos hR hnum

theorem sure_coreSparks (hE : env.Calm) (hc : env.Polite) (hB : B.Proper) (hD : 0 < D) {n : ℤ} (hn : 0 < n) (xb amp : Vec D) :
    Sure env (coreSparks B n xb amp) fun l => l ≠ [] := by
  unfold coreSparks
  rw [if_neg (by omega)]
  refine (Sure.mapMAll (P := fun _ => True) fun x _ => .bind' (sure_explodeE hE hc hD _ _) fun y _ => sure_mapRand hB y).mono fun l hl h => ?_
  have := hl.2
  rw [h, List.length_nil, List.length_replicate] at this
  omega

theorem sure_someGauss (hE : env.Calm) (hc : env.Polite) (hB : B.Proper) (hD : 0 < D) {m : Option ℕ} {l : List (Vec D)} (h : ∀ k, m = some k → k ≤ l.length) (xb : Vec D) :
    Sure env (someGauss B m xb l) fun r => l.length ≤ r.length := by
  cases m with
  | none => exact .pure' le_rfl
  | some k => exact sure_addGauss hE hc (fun x => .bind' (sure_gaussianE hE hc hD _ _) fun y _ => sure_mapRand hB y) (h k rfl)

omit [Arith] in
theorem live_selectionD (hE : env.Calm) (hc : env.Polite) (hF : Tells env) (pop : Fin N → Vec D) (fit : Fin N → Fl) {l : List (Vec D)} (hl : l ≠ []) :
    Live env (selectionD pop fit l) (fun r => (∀ i : Fin N, i.val = 0 → r.2 i = r.1) ∧ (Fi r.1.2 ∨ r.1.2 = .pinf))
      fun r => (∀ i, Fi (fit i)) → Fi r.1.2 ∧ ∀ i, Fi (r.2 i).2 := by
  unfold selectionD
  refine .bind' (.evalRecs hE hF hl) fun r hr => ?_
  have hne : r ≠ [] := by intro h; rw [h] at hr; exact hl (List.length_eq_zero_iff.1 hr.2.symm)
  have hpos := List.length_pos_iff.2 hne
  refine .bindS (Sure.argminRec hne) fun b hb => .bindS (.tabM (P := fun i (e : Vec D × Fl) => Fi (fit i) → Fi e.2) fun i =>
    .bind' (sure_pick hE hc hpos) fun k _ => .pure' fun hi => ?_) fun new hnew => .pure' ⟨fun i hi => by simp [hi], hr.1 b hb.1⟩ fun hQ h => ⟨hQ b hb.1, fun i => ?_⟩
  · split
    · exact fi_of_lt (hr.1 _ (List.get_mem ..)) ‹_›
    · exact hi
  · simp only
    split
    · exact hQ b hb.1
    · exact hnew i (h i)

theorem updateCf_fi (up down : Fl) (c cb : Vec D × Fl) (k : Core D) (hc : Fi c.2) (hcb : Fi cb.2) (hk : Fi k.f) :
    Fi (updateCf up down c cb k).f ∧ (updateCf up down c cb k).f ≤ cb.2 := by
  have h1 : Fi (if c.2 ≤ k.f then { k with x := c.1, f := c.2, shared := false } else k).f := by split <;> assumption
  unfold updateCf
  simp only
  generalize (if c.2 ≤ k.f then { k with x := c.1, f := c.2, shared := false } else k) = k' at h1 ⊢
  obtain ⟨q, hq⟩ := h1
  obtain ⟨u, hu⟩ := hcb
  split
  · exact ⟨⟨u, hu⟩, by rw [hu, Fl.fin_le_fin]⟩
  · rename_i h
    rw [hq, hu, Fl.fin_le_fin] at h
    exact ⟨⟨q, hq⟩, by simp only; rw [hq, hu, Fl.fin_le_fin]; linarith⟩

omit [Arith] in
theorem getBest_fit {pop : List (Vec D)} {fit : List Fl} {b : Vec D × Fl} (h : getBest pop fit none .pinf = .ok b) : b.2 ∈ fit := by
  unfold getBest at h
  repeat' split at h
  all_goals cases h
  · exact List.mem_of_getElem? ‹_›
  · exact absurd ‹none = some _› nofun

/-- The dynamic fireworks algorithms. -/
theorem sureD (hE : env.Calm) (hc : env.Polite) (hB : B.Proper) (hF : Tells env) (hA : ExactArith) (hR : RoundLaw) (hD : 0 < D) (hN : 0 < N) {p : Par} (hp : p.FitsD N) (gauss : Bool)
    (up down : Fl) : (algD B N p gauss up down).SureWhile env := by
  refine ⟨fun (s : DynSt D N) _ fxb => (∀ i, Fi (s.fit i)) ∧ Fi fxb ∧ ∃ i, fxb ≤ s.fit i, fun w _ => ?_, fun s xb fxb w hs hst => ?_⟩
  · have key : Live env (initD B N) (fun s => ∀ i, Fi (s.fit i) ∨ s.fit i = .pinf) fun s => ∀ i, Fi (s.fit i) :=
      .bind' (live_init hE hB hF hN) fun r hr => .pure' hr id
    obtain ⟨s, w', h1, h2, h3⟩ := key.out w
    refine ⟨s, w', h1, first_arr hN fun i e => ?_, fun h b hb => ⟨h3 h, ?_⟩⟩
    · rcases h2 i with ⟨q, h⟩ | h <;> rw [h] at e <;> cases e
    · obtain ⟨i, hi⟩ := List.mem_ofFn.1 (getBest_fit hb)
      obtain ⟨q, hq⟩ := h3 h i
      rw [← hi]
      exact ⟨⟨q, hq⟩, i, by rw [hq, Fl.fin_le_fin]⟩
  · have key : ∀ s : DynSt D N, ((∀ i, Fi (s.fit i)) ∧ Fi fxb ∧ ∃ i, fxb ≤ s.fit i) →
        Live env (iterD B p gauss up down s xb fxb) (fun _ => True) fun r => (∀ i, Fi (r.1.fit i)) ∧ Fi r.2.2 ∧ ∃ i, r.2.2 ≤ r.1.fit i := by
      intro s ⟨hs, hx, hle⟩
      unfold iterD
      refine .bindS (sure_sparksNum hA hR hN hp.a hs) fun n hn => .bindS (sure_amplitudes hN) fun amp _ => .bindS (sure_coreNum hA hR hN hp hs hx hle) fun m hm => ?_
      refine .bindS (sure_explosions (fun i x => .bind' (sure_explodeE hE hc hD _ _) fun y _ => sure_mapRand hB y) hn _) fun l hl => ?_
      refine .bindS (sure_someGauss hE hc hB hD (fun k hk => ?_) _) fun l' hl' => .bindS (sure_coreSparks hE hc hB hD hm _ _) fun cf hcf => ?_
      · split at hk
        · cases hk; exact hp.gauss.trans hl
        · cases hk
      refine .bind' (live_selectionD hE hc hF _ _ (by intro h; rw [h, List.length_nil] at hl'; omega)) fun r hr => .bind' (.evalRecs hE hF hcf) fun rc hrc => ?_
      have hne : rc ≠ [] := by intro h; rw [h] at hrc; exact hcf (List.length_eq_zero_iff.1 hrc.2.symm)
      refine .bindS (Sure.argminRec hne) fun c hcm => .pure' trivial fun h1 h2 => ?_
      have h2 := h2 hs
      obtain ⟨h3, h4⟩ := updateCf_fi up down c r.1 ⟨if s.shared then r.1.1 else xb, fxb, s.amp, s.shared⟩ (h1 c hcm.1) h2.1 hx
      exact ⟨h2.2, h3, ⟨0, hN⟩, by simp only [hr.1 ⟨0, hN⟩ rfl]; exact h4⟩
    obtain ⟨r, w', h1, -, h2⟩ := (key s hs).out w
    exact ⟨r, w', h1, h2⟩

/-- **C71, dynamic fireworks algorithms** (without rounding; an objective with finite values). -/
theorem C71_dynfwa (hE : env.Calm) (hc : env.Polite) (hB : B.Proper) (hF : Tells env) (hA : ExactArith) (hR : RoundLaw) (hD : 0 < D) (hN : 0 < N) {p : Par} (hp : p.FitsD N) (gauss : Bool)
    (up down : Fl) (m : ℕ) (hm : env.maxIters = some m ∨ env.maxEvals = some m) (main : Bool) (ncb fuel : ℕ) (hf : m < fuel) :
    ∃ res, ((algD B N p gauss up down).exec env main ncb fuel).1 = .ok ⟨some res, none⟩ := by
  refine (sureD hE hc hB hF hA hR hD hN hp gauss up down).returns hc main ncb fuel ?_
  rcases hm with hm | hm
  · exact (C17_uncoupled (.dynFwa (B := B) N p gauss up down) env (hE.noFuel hc) m hm main ncb fuel hf).1
  · exact C17_uncoupled_evals (.dynFwa (B := B) N p gauss up down) (by show 0 < N + _ + 1; omega) env (hE.noFuel hc) m hm main ncb fuel hf

/-! ### C93: sparks and amplitudes -/

theorem vsum_exact (hA : ExactArith) {n : ℕ} {f : Fin n → Fl} {g : Fin n → ℚ} (h : ∀ i, f i = .fin (g i)) : vsum f = .fin (∑ i, g i) := by
  have key : ∀ (l : List ℚ) (a : ℚ), (l.map Fl.fin).foldl (· + ·) (Fl.fin a) = .fin (a + l.sum) := by
    intro l
    induction l with
    | nil => intro a; simp
    | cons q l ih => intro a; rw [List.map_cons, List.foldl_cons, hA.add, ih, List.sum_cons, add_assoc]
  have e : List.ofFn f = (List.ofFn g).map Fl.fin := by
    rw [List.map_ofFn]; congr 1; funext i; exact h i
  have := key (List.ofFn g) 0
  rw [← e, zero_add, List.sum_ofFn] at this
  exact this

/-- The number `num_sparks` is divided into: as much as the firework is better than the worst. -/
def quota (p : Par) (g : Fin N → ℚ) (worst : ℚ) (i : Fin N) : ℚ :=
  p.num * (worst - g i + 1 / 4503599627370496) / ((∑ j, (worst - g j)) + 1 / 4503599627370496)

omit [Arith] in
theorem quota_anti (p : Par) {g : Fin N → ℚ} {worst : ℚ} (hw : ∀ j, g j ≤ worst) {i j : Fin N} (h : g i ≤ g j) : quota p g worst j ≤ quota p g worst i := by
  have hs : 0 ≤ ∑ j, (worst - g j) := Finset.sum_nonneg fun j _ => by linarith [hw j]
  unfold quota
  refine div_le_div_of_nonneg_right (mul_le_mul_of_nonneg_left (by linarith) (by positivity)) (by positivity)

/-- **C93, fireworks.** A firework that is not worse than another one explodes into at least as many sparks, and into no fewer than the
`a`-th part of `num_sparks`. -/
theorem C93_sparks (hA : ExactArith) (hR : RoundLaw) (hN : 0 < N) {p : Par} (ha : NN p.a) {fit : Fin N → Fl} (hf : ∀ i, Fi (fit i)) :
    Sure env (sparksNum p fit) fun n => (∀ i j, fit i ≤ fit j → n j ≤ n i) ∧ ∀ i, toInt (Arith.fn .round (p.a * Fl.ofNat p.num)) ≤ n i := by
  choose g hg using hf
  obtain ⟨a, ha, ea⟩ := ha
  obtain ⟨r, hm, hi, hr⟩ := hR
  have hint : ∀ q, toInt (Arith.fn .round (.fin q)) = r q := fun q => by
    rw [hr]
    simp only [toInt]
    split <;> simp
  unfold sparksNum
  refine .bind' (sure_max hN hg) fun iw hw => .pure' ?_
  have hs : (vsum fun i => fit iw - fit i) = .fin (∑ i, (g iw - g i)) := vsum_exact hA fun i => by rw [hg, hg, hA.sub]
  have hs0 : 0 ≤ ∑ j, (g iw - g j) := Finset.sum_nonneg fun j _ => by linarith [hw j]
  have hq : ∀ i, Fl.ofNat p.num * (fit iw - fit i + eps) / ((vsum fun i => fit iw - fit i) + eps) = .fin (quota p g (g iw) i) := fun i => by
    rw [hs, hg iw, hg i, eps_fin, hA.sub, hA.add, hA.add, show Fl.ofNat p.num = .fin p.num from rfl, hA.mul, hA.div _ _ (by positivity)]
    rfl
  have hE : ∀ i, toInt (if Fl.ofNat p.num * (fit iw - fit i + eps) / ((vsum fun i => fit iw - fit i) + eps) < p.a * Fl.ofNat p.num then Arith.fn .round (p.a * Fl.ofNat p.num)
      else if p.b * Fl.ofNat p.num < Fl.ofNat p.num * (fit iw - fit i + eps) / ((vsum fun i => fit iw - fit i) + eps) ∧ p.a < p.b ∧ p.b < 1 then Arith.fn .round (p.b * Fl.ofNat p.num)
      else Arith.fn .round (Fl.ofNat p.num * (fit iw - fit i + eps) / ((vsum fun i => fit iw - fit i) + eps))) =
      r (if p.a < p.b ∧ p.b < 1 then max (a * p.num) (min (quota p g (g iw) i) ((match p.b with | .fin b => b | _ => 0) * p.num)) else max (a * p.num) (quota p g (g iw) i)) := fun i => by
    rw [hq, ea, show Fl.ofNat p.num = .fin p.num from rfl, hA.mul]
    simp only [Fl.fin_lt_fin]
    rw [← ea]
    by_cases hc : p.a < p.b ∧ p.b < 1
    · obtain ⟨b, hab, eb⟩ := fin_between_lt (ea ▸ hc.1) hc.2
      have hc' := hc
      rw [ea, eb] at hc'
      simp only [ea, eb, hA.mul, Fl.fin_lt_fin, hc'.2, and_true, hab, if_true]
      have hab' : a * p.num ≤ b * p.num := mul_le_mul_of_nonneg_right hab.le (by positivity)
      split
      · rw [hint, max_eq_left ((min_le_left _ _).trans (by linarith))]
      · split
        · rw [hint, min_eq_right (by linarith), max_eq_right hab']
        · rw [hint, min_eq_left (by linarith), max_eq_right (by linarith)]
    · rw [if_neg (c := _ ∧ _ ∧ _) fun h => hc h.2, if_neg hc]
      split
      · rw [hint, max_eq_left (by linarith)]
      · rw [hint, max_eq_right (by linarith)]
  refine ⟨fun i j hij => ?_, fun i => ?_⟩
  · rw [hg, hg, Fl.fin_le_fin] at hij
    have := quota_anti p hw hij
    beta_reduce
    rw [hE, hE]
    refine hm ?_
    split
    · exact max_le_max le_rfl (min_le_min_right _ this)
    · exact max_le_max le_rfl this
  · beta_reduce
    rw [hE, ea, show Fl.ofNat p.num = .fin p.num from rfl, hA.mul, hint]
    refine hm ?_
    split <;> exact le_max_left _ _

/-- **C93, fireworks.** The explosion amplitude of a firework that is not worse than another one is at most as large; no amplitude exceeds
`max_amplitude`. -/
theorem C93_amplitudes (hA : ExactArith) (hN : 0 < N) {p : Par} (ha : NN p.maxAmp) {fit : Fin N → Fl} (hf : ∀ i, Fi (fit i)) :
    Sure env (amplitudes p fit) fun amp => (∀ i j, fit i ≤ fit j → amp i ≤ amp j) ∧ ∀ i, 0 ≤ amp i ∧ amp i ≤ p.maxAmp := by
  choose g hg using hf
  obtain ⟨a, ha, ea⟩ := ha
  unfold amplitudes
  refine .bind' (P := fun ib => ∀ j, g ib ≤ g j) ((Sure.argminRec (by simp only [ne_eq, List.finRange_eq_nil_iff]; omega)).mono fun i hi j => ?_) fun ib hb => .pure' ?_
  · have := hi.2 (fun e _ => by simp [hg]) j (List.mem_finRange j)
    rwa [hg, hg, Fl.fin_le_fin] at this
  have hs : (vsum fun i => fit i - fit ib) = .fin (∑ i, (g i - g ib)) := vsum_exact hA fun i => by rw [hg, hg, hA.sub]
  have hs0 : 0 ≤ ∑ j, (g j - g ib) := Finset.sum_nonneg fun j _ => by linarith [hb j]
  have hq : ∀ i, p.maxAmp * (fit i - fit ib + eps) / ((vsum fun i => fit i - fit ib) + eps) =
      .fin (a * (g i - g ib + 1 / 4503599627370496) / ((∑ j, (g j - g ib)) + 1 / 4503599627370496)) := fun i => by
    rw [hs, hg ib, hg i, eps_fin, hA.sub, hA.add, hA.add, ea, hA.mul, hA.div _ _ (by positivity)]
  refine ⟨fun i j hij => ?_, fun i => ?_⟩
  · rw [hg, hg, Fl.fin_le_fin] at hij
    beta_reduce
    rw [hq, hq, Fl.fin_le_fin]
    exact div_le_div_of_nonneg_right (mul_le_mul_of_nonneg_left (by linarith) ha) (by positivity)
  · have h1 := hb i
    have h2 : g i - g ib ≤ ∑ j, (g j - g ib) := Finset.single_le_sum (f := fun j => g j - g ib) (fun j _ => by linarith [hb j]) (Finset.mem_univ i)
    beta_reduce
    rw [hq, ea]
    refine ⟨(Fl.fin_le_fin _ _).2 (div_nonneg (mul_nonneg ha (by linarith)) (by positivity)), (Fl.fin_le_fin _ _).2 ?_⟩
    rw [div_le_iff₀ (by positivity)]
    exact mul_le_mul_of_nonneg_left (by linarith) ha

omit [Arith] in
/-- The hypotheses of `C93_sparks` and `C93_amplitudes`. -/
example : let _ := SHADE.Ex.arith; ∀ (env : Env (Vec 2)) (p : Par), p.a = .fin (1 / 25) → p.maxAmp = .fin 40 →
    Sure env (sparksNum p ![Fl.fin 1, .fin 3]) (fun n => n 1 ≤ n 0) ∧ Sure env (amplitudes p ![Fl.fin 1, .fin 3]) (fun amp => amp 0 ≤ amp 1 ∧ amp 1 ≤ .fin 40) :=
  fun env p ha hm => by
    letI := SHADE.Ex.arith
    have hf : ∀ i, Fi ((![Fl.fin 1, .fin 3] : Fin 2 → Fl) i) := fun i => by fin_cases i <;> exact ⟨_, rfl⟩
    have hle : (![Fl.fin 1, .fin 3] : Fin 2 → Fl) 0 ≤ (![Fl.fin 1, .fin 3] : Fin 2 → Fl) 1 := (Fl.fin_le_fin 1 3).2 (by norm_num)
    exact ⟨(C93_sparks (SHADE.Ex.laws.1) (SHADE.Ex.laws.2.2.2) (by norm_num) (p := p) ⟨_, by norm_num, ha⟩ hf).mono fun n h => h.1 0 1 hle,
      (C93_amplitudes (SHADE.Ex.laws.1) (by norm_num) (p := p) ⟨_, by norm_num, hm⟩ hf).mono fun amp h => ⟨h.1 0 1 hle, hm ▸ (h.2 1).2⟩⟩

/-- What the arithmetic does with zeros; double precision satisfies it (`Float64.zeroLaw`). -/
structure ZeroLaw : Prop where
  sub : ∀ a : ℚ, (Fl.fin a - Fl.fin a : Fl) = .fin 0
  mul : (Fl.fin 0 * Fl.fin 0 : Fl) = .fin 0
  add : (Fl.fin 0 + Fl.fin 0 : Fl) = .fin 0
  div : (Fl.fin 0 / Fl.fin 0 : Fl) = .nan
  sqrt : Arith.fn .sqrt (.fin 0) = .fin 0

theorem vsum_zero (hZ : ZeroLaw) {n : ℕ} {f : Fin n → Fl} (h : ∀ i, f i = .fin 0) : vsum f = .fin 0 := by
  have key : ∀ l : List Fl, (∀ v ∈ l, v = .fin 0) → l.foldl (· + ·) (0 : Fl) = .fin 0 := by
    intro l
    induction l with
    | nil => exact fun _ => rfl
    | cons a l ih =>
      intro hl
      have : (0 : Fl) + a = 0 := by rw [hl a (by simp)]; exact hZ.add
      rw [List.foldl_cons, this]
      exact ih fun v hv => hl v (by simp [hv])
  exact key _ fun v hv => by obtain ⟨i, rfl⟩ := List.mem_ofFn.1 hv; exact h i

/-- Weights of points that coincide. -/
theorem crowding_same (hZ : ZeroLaw) {l : List (Vec D × Fl)} {x : Vec D} (hx : ASO.Finite x) (hl : ∀ e ∈ l, e.1 = x) (j : Fin l.length) : crowding l j = .nan := by
  have hd : ∀ i j : Fin l.length, euclid (l.get i).1 (l.get j).1 = .fin 0 := fun i j => by
    rw [hl _ (List.get_mem ..), hl _ (List.get_mem ..), euclid, norm2, vsum_zero hZ fun k => ?_, hZ.sqrt]
    obtain ⟨q, hq⟩ := hx k
    rw [hq, hZ.sub, hZ.mul]
  simp only [crowding]
  rw [vsum_zero hZ fun i => hd i j, vsum_zero hZ fun j => vsum_zero hZ fun i => hd i j, hZ.div]

/-- C71 is false of the fireworks algorithm: `run_iteration` never returns if the fireworks coincide, and in one dimension their sparks do,
too (C60): the weights `0/0` are not probabilities. -/
theorem C71_fwa_false (hZ : ZeroLaw) (B : Box 1) (p : Par) (env : Env (Vec 1)) (s : St 1 N) (x : Vec 1) (hx : ASO.Finite x) (hb : B.NotOut x) (hs : ∀ i, s.pop i = x)
    (xb : Vec 1) (fxb : Fl) : Post env (iter B p s xb fxb) fun _ => False := by
  have hid : Repair.reflect B x = x := (Repair.C10_identity B env.rng 0 _ hb).2.2.2.2
  refine .bind' .any fun n _ => .bind' .any fun amp _ => ?_
  refine .bind' (post_explosions (P := fun y => y = x) hs fun i y hy => ?_) fun l hl => ?_
  · exact .bind' (C60_explode_false env _ y) fun z hz => .pure' (by subst hz; rw [hy, hid])
  refine .bind' (post_addGauss hl fun y hy => ?_) fun l hl => ?_
  · exact .bind' (C60_gaussian_false env y) fun z hz => .pure' (by subst hz; rw [hy, hid])
  refine .bind' .evalRecs fun r hr => .bind' (P := fun q => ∀ e ∈ q.2, e.1 = x) ?_ fun q hq => ?_
  · exact .bind' .any fun i _ => .pure' fun e he => hl _ (hr _ (List.mem_of_mem_eraseIdx he))
  · obtain ⟨b, rest⟩ := q
    refine .bind' (P := fun _ => False) ?_ fun _ h => h.elim
    unfold choiceP
    refine .bind' .any fun idx _ => ?_
    rw [dif_neg fun h => h.1.1 ⟨0, h.1.2⟩ (crowding_same hZ hx hq _)]
    exact fun _ _ _ h => by cases h

/-- C71 is false of whole runs of the fireworks algorithm: with one firework in one dimension, on any problem and with any parameters, no
iteration is ever completed. So a run returns only if the task has stopped after the initialisation. -/
theorem C71_fwa_run_false (hZ : ZeroLaw) {B : Box 1} (hB : B.Proper) (p : Par) (env : Env (Vec 1)) :
    (∀ ncb hist w, (alg B 1 p).Trace env ncb hist w → hist.length = 1) ∧
    ∀ main ncb fuel res, ((alg B 1 p).exec env main ncb fuel).1 = .ok ⟨some res, none⟩ →
      ((alg B 1 p).exec env main ncb fuel).2.st.iters = 0 ∧ stoppingCondition env.toTaskCfg ((alg B 1 p).exec env main ncb fuel).2.st = true := by
  have hfirst : ∀ ncb r w, (alg B 1 p).Trace env ncb [r] w → ASO.Finite ((r.1 : St 1 1).pop 0) ∧ B.NotOut ((r.1 : St 1 1).pop 0) := by
    intro ncb r w ht
    cases ht with
    | start hs =>
      obtain ⟨w1, h1, -⟩ := start_init hs
      have key : Post env (init B 1) fun s => ASO.Finite (s.pop 0) ∧ B.NotOut (s.pop 0) := by
        unfold init defaultNumpyInit
        refine .bind' (P := fun q : (Fin 1 → Vec 1) × (Fin 1 → Fl) => ASO.Finite (q.1 0) ∧ B.NotOut (q.1 0)) ?_ fun q hq => .pure' hq
        refine .bind' (.tabM (P := fun _ (x : Vec 1) => ∀ j, B.lo j ≤ x j ∧ x j ≤ B.hi j) fun i => Post.tabM (P := fun j v => B.lo j ≤ v ∧ v ≤ B.hi j) fun j => .unif fun r h1 h2 => ⟨h1, h2⟩) fun pop hpop => ?_
        rw [if_neg (by omega)]
        refine .bind' .any fun fs _ => .pure' ⟨finite_unif hB (hpop 0), fun j => ?_⟩
        exact ⟨Fl.not_lt_of_le (hpop 0 j).1, Fl.not_lt_of_le (hpop 0 j).2⟩
      exact key _ _ _ h1
  have hone : ∀ ncb hist w, (alg B 1 p).Trace env ncb hist w → hist.length = 1 := by
    intro ncb hist w ht
    induction ht with
    | start hs => rfl
    | @round r r' hist w w' ht _ hr ih =>
      have hh : hist = [] := by simpa using ih
      subst hh
      obtain ⟨h1, h2⟩ := hfirst _ _ _ ht
      obtain ⟨w1, w2, h3, -⟩ := round_iter hr
      refine (C71_fwa_false hZ B p env r.1 _ h1 h2 (fun i => ?_) r.2.1 r.2.2 _ _ _ h3).elim
      rw [Fin.eq_zero i]
  refine ⟨hone, fun main ncb fuel res h => ?_⟩
  rw [exec_eq] at h ⊢
  simp only at h ⊢
  cases hb : ((alg B 1 p).execBody env ncb fuel).1 with
  | error e => rw [hb] at h; simp only at h; split at h <;> cases h
  | ok r =>
    obtain ⟨hist, w, ht, hs, hf⟩ := body_trace hb
    have hst := fireAll_st env ncb .afterRun w
    rw [hf] at hst
    simp only at hst
    have hc := (verified B 1 p).trace_count env (metBy_reflects B env) ht
    have := hone _ _ _ ht
    rw [hst]
    exact ⟨by omega, hs⟩

namespace Ex

omit [Arith] in
theorem zeroLaw : @ZeroLaw NiaPy.Ex.arith :=
  let _ := NiaPy.Ex.arith
  ⟨fun a => by change Fl.fin (a + -a) = .fin 0; rw [add_neg_cancel], by decide +kernel, by decide +kernel, by decide +kernel, rfl⟩

omit [Arith] in
/-- The hypotheses of `C71_fwa_run_false` hold, and indeed the run raises `ValueError`. -/
example : (let _ := NiaPy.Ex.arith; ∀ ncb hist w, (alg (NiaPy.Ex.box 1) 1 Ex.par).Trace NiaPy.Ex.env2 ncb hist w → hist.length = 1) ∧
    ((@alg NiaPy.Ex.arith 1 (NiaPy.Ex.box 1) 1 Ex.par).exec NiaPy.Ex.env2 true 0 5).1 = .error .valueError := by
  refine ⟨(@C71_fwa_run_false NiaPy.Ex.arith zeroLaw _ (NiaPy.Ex.box_proper 1) Ex.par NiaPy.Ex.env2).1, ?_⟩
  have h : (match ((@alg NiaPy.Ex.arith 1 (NiaPy.Ex.box 1) 1 Ex.par).exec NiaPy.Ex.env2 true 0 5).1 with | .error .valueError => true | _ => false) = true := by decide +kernel
  split at h
  · assumption
  · cases h

omit [Arith] in
/-- The hypotheses of `C71_bbfwa` hold. -/
example (m : ℕ) : ∃ res, ((@bbAlg NiaPy.Ex.arith 2 (NiaPy.Ex.box 2) ⟨3, .fin 2, .fin (1 / 2)⟩).exec (NiaPy.Ex.env2 m) true 0 (m + 1)).1 = .ok ⟨some res, none⟩ :=
  let _ := NiaPy.Ex.arith
  C71_bbfwa (NiaPy.Ex.env2_calm m none) (NiaPy.Ex.env2_polite m none) (NiaPy.Ex.box_proper 2) (NiaPy.Ex.env2_tame m none)
    ⟨by decide, ⟨2, by norm_num, rfl⟩, ⟨1 / 2, by norm_num, rfl⟩⟩ m (Or.inl rfl) true 0 _ (by omega)

omit [Arith] in
theorem tells (m : ℕ) : Tells (SHADE.Ex.sphereEnv 2 (some m) none) := fun k x r h => by
  have h : Except.ok (match NiaPy.Ex.sumSq x with | .fin q => Fl.fin q | _ => .fin 0) = Except.ok (ε := PyErr) r := h
  cases h
  split <;> exact ⟨_, rfl⟩

omit [Arith] in
theorem calm (m : ℕ) : (SHADE.Ex.sphereEnv 2 (some m) none).Calm := fun k x => ⟨_, rfl, by
  show (match NiaPy.Ex.sumSq x with | .fin q => Fl.fin q | _ => .fin 0) ≠ .nan
  split <;> simp⟩

omit [Arith] in
/-- The hypotheses of `C71_efwa` and `C71_dynfwa` hold, with any number of evaluations. -/
example (m : ℕ) : ∃ res, ((@algE SHADE.Ex.arith 2 (NiaPy.Ex.box 2) 4 Ex.parD 0 0).exec (SHADE.Ex.sphereEnv 2 (some m) none) true 0 (m + 1)).1 = .ok ⟨some res, none⟩ :=
  let _ := SHADE.Ex.arith
  C71_efwa (calm m) (fun _ _ _ => rfl) (NiaPy.Ex.box_proper 2) (tells m) SHADE.Ex.laws.1 SHADE.Ex.laws.2.2.2 (by decide) (by decide)
    ⟨⟨1 / 2, by norm_num, rfl⟩, by decide⟩ 0 0 m (Or.inr rfl) true 0 _ (by omega)

omit [Arith] in
example (m : ℕ) (gauss : Bool) : ∃ res, ((@algD SHADE.Ex.arith 2 (NiaPy.Ex.box 2) 4 Ex.parD gauss 2 0).exec (SHADE.Ex.sphereEnv 2 (some m) none) true 0 (m + 1)).1 = .ok ⟨some res, none⟩ :=
  let _ := SHADE.Ex.arith
  C71_dynfwa (calm m) (fun _ _ _ => rfl) (NiaPy.Ex.box_proper 2) (tells m) SHADE.Ex.laws.1 SHADE.Ex.laws.2.2.2 (by decide) (by decide)
    ⟨⟨⟨1 / 2, by norm_num, rfl⟩, by decide⟩, by decide, fun q hq _ => by cases hq; norm_num [Ex.parD]⟩ gauss 2 0 m (Or.inr rfl) true 0 _ (by omega)

end Ex

end FWA

/-! ### C93: better individuals get the larger share -/

omit [Arith] in
theorem Post.forFin {n : ℕ} {f : Fin n → σ → Prog X σ} {s : σ} (J : σ → Prop) (h0 : J s) (h : ∀ i s, J s → Post envX (f i s) J) :
    Post envX (NiaPy.forFin n f s) J := by
  induction n generalizing s with
  | zero => exact .pure' h0
  | succ n ih => exact .bind (h 0 s h0) fun s' h' => ih h' fun i s hs => h i.succ s hs

namespace ABC
open SHADE (ExactArith)
open FWA (vsum_exact)
open MTS (Fi)
variable {N : ℕ} {env : Env (Vec D)}

omit [Arith] in
theorem lit_hundredth : lit 1 100 = .fin (1 / 100) := by simp [lit]

theorem probabilities_fin (hA : ExactArith) {s : Loc D N} {g : Fin (N / 2) → ℚ} (hg : ∀ i, (s.pop (emb i)).f = .fin (g i)) (h0 : ∀ i, g i + 1 / 100 ≠ 0)
    (hs : ∑ i, 1 / (g i + 1 / 100) ≠ 0) (i : Fin (N / 2)) : probabilities s i = .fin (1 / (g i + 1 / 100) / ∑ i, 1 / (g i + 1 / 100)) := by
  have hp : ∀ i, (1 : Fl) / ((s.pop (emb i)).f + lit 1 100) = .fin (1 / (g i + 1 / 100)) := fun i => by
    rw [hg, lit_hundredth, hA.add, show (1 : Fl) = .fin 1 from rfl, hA.div _ _ (h0 i)]
  simp only [probabilities]
  rw [vsum_exact hA hp, hp, hA.div _ _ hs]

/-- **C93, artificial bee colony (partial).** If all food sources have values above `-0.01`, the probabilities with which onlookers choose
them are positive and sum to one, and a food source that is not worse than another one is at least as likely to be chosen. -/
theorem C93_abc_partial (hA : ExactArith) (hN : 0 < N / 2) {s : Loc D N} {g : Fin (N / 2) → ℚ} (hg : ∀ i, (s.pop (emb i)).f = .fin (g i)) (h : ∀ i, -1 / 100 < g i) :
    ∃ p : Fin (N / 2) → ℚ, (∀ i, probabilities s i = .fin (p i) ∧ 0 < p i) ∧ ∑ i, p i = 1 ∧ ∀ i j, g i ≤ g j → p j ≤ p i := by
  have hp : ∀ i, 0 < g i + 1 / 100 := fun i => by linarith [h i]
  have hs : 0 < ∑ i, 1 / (g i + 1 / 100) := Finset.sum_pos (fun i _ => by have := hp i; positivity) ⟨⟨0, hN⟩, Finset.mem_univ _⟩
  refine ⟨fun i => 1 / (g i + 1 / 100) / ∑ i, 1 / (g i + 1 / 100), fun i => ⟨probabilities_fin hA hg (fun i => (hp i).ne') hs.ne' i, ?_⟩, ?_, fun i j hij => ?_⟩
  · have := hp i
    positivity
  · rw [← Finset.sum_div, div_self hs.ne']
  · exact div_le_div_of_nonneg_right (one_div_le_one_div_of_le (hp i) (by linarith)) hs.le

/-- C93 is false of the artificial bee colony for negative values (for instance, whenever a positive function is maximized): the better of two
food sources is less likely to be chosen. -/
theorem C93_abc_false (hA : ExactArith) {s : Loc D N} {g : Fin (N / 2) → ℚ} (hg : ∀ i, (s.pop (emb i)).f = .fin (g i)) (h : ∀ i, g i < -1 / 100) (i j : Fin (N / 2))
    (hij : g i < g j) : probabilities s i < probabilities s j := by
  have hp : ∀ i, g i + 1 / 100 < 0 := fun i => by linarith [h i]
  have hs : ∑ i, 1 / (g i + 1 / 100) < 0 := Finset.sum_neg (fun i _ => one_div_neg.2 (hp i)) ⟨i, Finset.mem_univ _⟩
  rw [probabilities_fin hA hg (fun i => (hp i).ne) hs.ne, probabilities_fin hA hg (fun i => (hp i).ne) hs.ne, Fl.fin_lt_fin]
  exact div_lt_div_of_neg_of_lt hs (one_div_lt_one_div_of_neg_of_lt (hp j) (by linarith))

/-- In exact arithmetic: of two food sources with the values -1 and -2, the better second one is chosen with probability 1/3. -/
example : let _ := SHADE.Ex.arith; let s : Loc 1 4 := ⟨⟨![⟨fun _ => 0, .fin (-1)⟩, ⟨fun _ => 0, .fin (-2)⟩, ⟨fun _ => 0, .fin 0⟩, ⟨fun _ => 0, .fin 0⟩], fun _ => 0⟩, fun _ => 0, .fin (-2)⟩
    probabilities s 1 < probabilities s 0 := by
  letI := SHADE.Ex.arith
  exact C93_abc_false (N := 4) (SHADE.Ex.laws.1) (g := ![-1, -2]) (fun i => by fin_cases i <;> rfl) (fun i => by fin_cases i <;> norm_num) 1 0 (by norm_num)

/-- The hypotheses of `C93_abc_partial`. -/
example : let _ := SHADE.Ex.arith; let s : Loc 1 4 := ⟨⟨![⟨fun _ => 0, .fin 1⟩, ⟨fun _ => 0, .fin 2⟩, ⟨fun _ => 0, .fin 0⟩, ⟨fun _ => 0, .fin 0⟩], fun _ => 0⟩, fun _ => 0, .fin 0⟩
    ∃ p : Fin 2 → ℚ, (∀ i, probabilities s i = .fin (p i) ∧ 0 < p i) ∧ ∑ i, p i = 1 := by
  letI := SHADE.Ex.arith
  obtain ⟨p, h1, h2, -⟩ := C93_abc_partial (D := 1) (N := 4) (SHADE.Ex.laws.1) (by norm_num) (g := ![1, 2])
    (s := ⟨⟨![⟨fun _ => 0, .fin 1⟩, ⟨fun _ => 0, .fin 2⟩, ⟨fun _ => 0, .fin 0⟩, ⟨fun _ => 0, .fin 0⟩], fun _ => 0⟩, fun _ => 0, .fin 0⟩) (fun i => by fin_cases i <;> rfl) (fun i => by fin_cases i <;> norm_num)
  exact ⟨p, h1, h2⟩

/-! ### C94: iterations end -/

omit [Arith] in
theorem neighbor_stuck (h : N / 2 = 1) (i : Fin (N / 2)) (fuel : ℕ) : Post env (neighbor (D := D) i fuel) fun _ => False := by
  induction fuel with
  | zero => intro w w' a ha; cases ha
  | succ fuel ih =>
    refine .bind' .any fun n _ => ?_
    rw [if_pos (Fin.ext (by have := n.2; have := i.2; omega))]
    exact ih

theorem onlookers_stuck (opt : OptType) (B : Box D) (limit fuel0 : ℕ) (prob : Fin (N / 2) → Fl) (last : Fin (N / 2)) (t : ℕ) (ht : t < N / 2)
    (h : ∀ i s, Fl.fin 0 < prob i → Post env (onlooker opt B limit fuel0 last i s) fun _ => False) (fuel : ℕ) (i : Fin (N / 2)) (s : Loc D N) :
    Post env (onlookers opt B limit fuel0 prob last fuel t i s) fun _ => False := by
  induction fuel generalizing i s with
  | zero => intro w w' a ha; cases ha
  | succ fuel ih =>
    unfold onlookers
    rw [if_pos ht]
    refine .bind' (.rand (P := fun r => .fin 0 ≤ r) fun r h _ => h) fun r hr => .bind' (P := fun x : ℕ × Loc D N => x.1 = t) ?_ fun x hx => ?_
    · split
      next hp => exact (Post.bind' (h i s (Fl.lt_of_le_of_lt hr hp)) fun _ h => h.elim : Post env _ fun _ => False).mono fun _ h => h.elim
      · exact .pure' rfl
    · obtain ⟨t', s'⟩ := x
      cases hx
      exact ih _ _

/-- **C94 is false of the artificial bee colony** with `population_size` 2 or 3: no iteration ever returns, since the only food source has no
neighbor. (The loops are cut off after `fuel` rounds in the model, so here they end with `outOfFuel` for every `fuel`.) -/
theorem C94_abc_small_false (h : N / 2 = 1) (opt : OptType) (B : Box D) (limit fuel : ℕ) (s : St D N) (xb : Vec D) (fxb : Fl) :
    Post env (iter opt B limit fuel s xb fxb) fun _ => False := by
  unfold iter
  refine .bind' .any fun s _ => .bind' (P := fun _ => False) ?_ fun _ h => h.elim
  rw [dif_pos (by omega)]
  exact onlookers_stuck opt B limit fuel _ _ 0 (by omega) (fun i s _ => .bind' .any fun k _ => .bind' (neighbor_stuck h i fuel) fun _ h => h.elim) fuel _ _

/-- Hence a run with `population_size` 2 or 3 that returns has not made a single iteration. -/
theorem C94_abc_run_false (h : N / 2 = 1) (opt : OptType) (B : Box D) (limit lf ncb : ℕ) {hist : List ((alg opt B N limit lf).σ × Vec D × Fl)} {w : World (Vec D)}
    (ht : (alg opt B N limit lf).Trace env ncb hist w) : hist.length = 1 := by
  cases ht with
  | start _ => rfl
  | round _ _ hr =>
    obtain ⟨w1, w2, h1, -⟩ := round_iter hr
    exact (C94_abc_small_false h opt B limit lf _ _ _ _ _ _ h1).elim

omit [Arith] in
/-- With three bees on the sphere function, no number of rounds of the loops is enough. -/
example (lf : ℕ) (s : St 2 3) (xb : Vec 2) (fxb : Fl) : let _ := NiaPy.Ex.arith; Post NiaPy.Ex.env2 (iter .minimization (NiaPy.Ex.box 2) 100 lf s xb fxb) fun _ => False :=
  @C94_abc_small_false NiaPy.Ex.arith _ _ _ rfl _ _ _ _ _ _ _

/-- What is used of the arithmetic: the probabilities of food sources of infinite value are not positive (they are `0 / 0`). -/
def InfProb : Prop := ∀ n : ℕ, ¬ Fl.fin 0 < ((1 : Fl) / (.pinf + lit 1 100)) / vsum fun _ : Fin n => (1 : Fl) / (.pinf + lit 1 100)

/-- **C94 is false of the artificial bee colony** if the objective function returns `inf` at all points (for instance, a penalty for infeasible
points, of which the box has no others): no iteration returns. -/
theorem C94_abc_inf_false (hI : InfProb) (hN : 0 < N / 2) (hv : ∀ x v, Possible env x v → v = .pinf) (opt : OptType) (B : Box D) (limit fuel : ℕ) (s : St D N)
    (hs : ∀ i, (s.pop i).f = .pinf) (xb : Vec D) (fxb : Fl) : Post env (iter opt B limit fuel s xb fxb) fun _ => False := by
  have hupd : ∀ (pop : Fin N → Indiv D) (k : Fin N) (y : Indiv D), (∀ i, (pop i).f = .pinf) → y.f = .pinf → ∀ i, (Function.update pop k y i).f = .pinf := by
    intro pop k y h hy i
    by_cases e : i = k
    · subst e; rw [Function.update_self]; exact hy
    · rw [Function.update_of_ne e]; exact h i
  have hev : ∀ y : Indiv D, Post env (Indiv.evaluate y) fun y => y.f = .pinf := fun y => .bind' .any fun x _ => .bind' (.eval fun v h => hv _ v h) fun v h => .pure' h
  have hem : ∀ (i : Fin (N / 2)) (s : Loc D N), (∀ i, (s.pop i).f = .pinf) → Post env (employed opt B limit i s) fun s => ∀ i, (s.pop i).f = .pinf := by
    intro i s hs
    refine .bind' .any fun k _ => .bind' .any fun n _ => .bind' (P := fun y : Indiv D => y.f = .pinf) (.bind' .any fun u _ => hev _) fun y hy => ?_
    split
    · exact .pure' (hupd _ _ _ hs hy)
    · dsimp only
      split
      · exact .bind' (P := fun y : Indiv D => y.f = .pinf) (.bind' .any fun u _ => hev _) fun y hy => .pure' (hupd _ _ _ hs hy)
      · exact .pure' hs
  unfold iter
  refine .bind' (.forFin (J := fun s : Loc D N => ∀ i, (s.pop i).f = .pinf) hs hem) fun s hs => .bind' (P := fun _ => False) ?_ fun _ h => h.elim
  rw [dif_pos hN]
  refine onlookers_stuck opt B limit fuel _ _ 0 hN (fun i s' h => absurd h ?_) fuel _ _
  simp only [probabilities, hs]
  exact hI _

omit [Arith] in
/-- `InfProb` holds without rounding. -/
theorem InfProb.exact (fn : Fn → Fl → Fl) : @InfProb (exactArith fn) := by
  letI := exactArith fn
  intro n
  have h0 : ((1 : Fl) / (.pinf + lit 1 100)) = .fin 0 := rfl
  simp only [h0]
  have : (vsum fun _ : Fin n => Fl.fin 0) = .fin 0 := by
    have key : ∀ l : List Fl, (∀ a ∈ l, a = .fin 0) → l.foldl (· + ·) (0 : Fl) = .fin 0 := by
      intro l
      induction l with
      | nil => intro _; rfl
      | cons a l ih =>
        intro h
        rw [List.foldl_cons, h a (by simp), show ((0 : Fl) + .fin 0) = 0 from congrArg Fl.fin (add_zero 0)]
        exact ih fun a ha => h a (by simp [ha])
    exact key _ fun a ha => by
      obtain ⟨i, rfl⟩ := (List.mem_ofFn' _ _).1 ha
      rfl
  rw [this]
  change ¬ Fl.fin 0 < Fl.nan
  simp

omit [Arith] in
/-- The hypotheses of `C94_abc_inf_false`. -/
example (lf : ℕ) (xb : Vec 2) (fxb : Fl) : let _ := NiaPy.Ex.arith; Post { NiaPy.Ex.env2 with obj := fun _ _ => .ok .pinf } (iter .minimization (NiaPy.Ex.box 2) 100 lf
    (⟨fun _ => ⟨fun _ => 0, .pinf⟩, fun _ => 0⟩ : St 2 10) xb fxb) fun _ => False :=
  letI := NiaPy.Ex.arith
  C94_abc_inf_false (InfProb.exact _) (by norm_num) (fun x v h => by
    rcases h with h | ⟨k, r, hr, h⟩
    · exact h
    · cases hr; rw [h]; rfl) _ _ _ _ _ (fun _ => rfl) _ _

end ABC

namespace GA
variable {N : ℕ} {env : Env (Vec D)}

omit [Arith] in
/-- **C93, tournament selection.** The winner is not worse than any of `tournament_size` different individuals. -/
theorem C93_tournament [Arith] (ts : ℕ) (pop : Fin N → Indiv D) (hn : ∀ i, (pop i).f ≠ .nan) (ic : Fin N) (xb : Vec D) :
    Post env ((Sel.tournament ts).run pop ic xb) fun x => ∃ i, x = (pop i).x ∧ ∃ S : Finset (Fin N), S.card = ts ∧ i ∈ S ∧ ∀ j ∈ S, (pop i).f ≤ (pop j).f := by
  refine .bind' (.yields Yields.choiceFin) fun c hc => .bind' (P := fun w => ∀ j, (pop (c w)).f ≤ (pop (c j)).f) ?_ fun w hw => .pure' ⟨c w, rfl, Finset.univ.map ⟨c, hc⟩, ?_, ?_, ?_⟩
  · exact .yields ⟨fun g => wp_argminRec fun i _ hi => ⟨fun j => hi (fun e _ => hn _) j (List.mem_finRange j), rfl⟩⟩
  · simp
  · simp
  · intro j hj
    obtain ⟨k, -, rfl⟩ := Finset.mem_map.1 hj
    exact hw k

omit [Arith] in
/-- If everyone competes, the winner is the best of all. -/
example : let _ := NiaPy.Ex.arith; ∀ (env : Env (Vec 1)) (xb : Vec 1), Post env ((Sel.tournament 2).run ![(⟨fun _ => 0, .fin 1⟩ : Indiv 1), ⟨fun _ => 5, .fin 0⟩] 0 xb) (· = fun _ => 5) :=
  fun env xb => by
    letI := NiaPy.Ex.arith
    refine (C93_tournament 2 ![(⟨fun _ => 0, .fin 1⟩ : Indiv 1), ⟨fun _ => 5, .fin 0⟩] (fun i => by fin_cases i <;> simp) 0 xb).mono fun x hx => ?_
    obtain ⟨i, rfl, S, hS, -, h⟩ := hx
    have := h 1 ((Finset.eq_univ_of_card S (by simpa using hS)) ▸ Finset.mem_univ _)
    fin_cases i
    · exact absurd this (by decide +kernel)
    · rfl

/-- C93 is false of roulette selection: the last individual of the population is always selected, however bad it is. -/
theorem C93_roulette_false (hA : SHADE.ExactArith) (pop : Fin N → Indiv D) {g : Fin N → ℚ} (hg : ∀ i, (pop i).f = .fin (g i)) (hs : ∑ i, g i ≠ 0) (ic : Fin N)
    (hl : ic.val + 1 = N) (xb : Vec D) : Post env (Sel.roulette.run pop ic xb) (· = (pop ic).x) := by
  refine .bind' (.rand (P := fun r => r < .fin 1) fun r _ h => h) fun r hr => .pure' ?_
  have ht : (List.finRange N).take (ic.val + 1) = List.finRange N := List.take_of_length_le (by simp [hl])
  have e : (List.finRange N).foldl (fun q i => q + (pop i).f / vsum fun i => (pop i).f) 0 = vsum fun i => (pop i).f / vsum fun i => (pop i).f := by
    generalize vsum (fun i => (pop i).f) = v
    rw [vsum, List.ofFn_eq_map, List.foldl_map]
  have hq : ∀ i, ((pop i).f / vsum fun i => (pop i).f) = .fin (g i / ∑ i, g i) := fun i => by
    rw [FWA.vsum_exact hA hg, hg, hA.div _ _ hs]
  rw [ht, e, FWA.vsum_exact hA hq, ← Finset.sum_div, div_self hs, if_pos hr]

omit [Arith] in
/-- In exact arithmetic with two individuals of the values 1 and 100, the second one is always selected. -/
example : let _ := SHADE.Ex.arith; ∀ (env : Env (Vec 1)) (xb : Vec 1), Post env (Sel.roulette.run ![(⟨fun _ => 0, .fin 1⟩ : Indiv 1), ⟨fun _ => 5, .fin 100⟩] 1 xb) (· = fun _ => 5) :=
  fun _ xb => by
    letI := SHADE.Ex.arith
    exact C93_roulette_false (SHADE.Ex.laws.1) _ (g := ![1, 100]) (fun i => by fin_cases i <;> rfl) (by decide +kernel) 1 rfl xb

end GA

namespace CSO
variable {N : ℕ}

/-- **C93, cat swarm optimization.** If the copies of a cat do not all have the same value, they are chosen with weights between 0 (the worst
one) and 1 (the best one), and a copy that is not worse than another one has at least its weight. If they have, the weights are equal. -/
theorem C93_cso (hA : SHADE.ExactArith) {n : ℕ} {fs : Fin n → Fl} {g : Fin n → ℚ} (hg : ∀ i, fs i = .fin (g i)) (iw ib : Fin n) (hw : ∀ i, g i ≤ g iw) (hb : ∀ i, g ib ≤ g i) :
    (∀ i j, g i ≤ g j → weights fs (fs iw) (fs ib) j ≤ weights fs (fs iw) (fs ib) i) ∧ (∀ i, .fin 0 ≤ weights fs (fs iw) (fs ib) i ∧ weights fs (fs iw) (fs ib) i ≤ .fin 1) ∧
    (g ib < g iw → weights fs (fs iw) (fs ib) ib = .fin 1 ∧ weights fs (fs iw) (fs ib) iw = .fin 0) := by
  unfold weights
  split
  next h =>
    obtain ⟨i, j, -, hij⟩ := h
    have hlt : g ib < g iw := by
      rcases (hb iw).lt_or_eq with h | h
      · exact h
      · have : g i = g j := le_antisymm (by linarith [hw i, hb j]) (by linarith [hw j, hb i])
        rw [hg, hg, this] at hij
        simp [Fl.eqB] at hij
    have hd : 0 < g iw - g ib := by linarith
    rw [if_neg (by rw [hg]; simp)]
    have e : ∀ i, Fl.abs (fs i - fs iw) / (fs iw - fs ib) = .fin ((g iw - g i) / (g iw - g ib)) := fun i => by
      rw [hg, hg, hg, hA.sub, hA.sub]
      change Fl.fin |g i - g iw| / _ = _
      rw [hA.div _ _ hd.ne', abs_sub_comm, abs_of_nonneg (by linarith [hw i])]
    simp only [e, Fl.fin_le_fin]
    refine ⟨fun i j h => div_le_div_of_nonneg_right (by linarith) hd.le, fun i => ⟨div_nonneg (by linarith [hw i]) hd.le, (div_le_one hd).2 (by linarith [hb i])⟩, fun _ => ?_⟩
    rw [div_self hd.ne', sub_self, zero_div]
    exact ⟨rfl, rfl⟩
  next h =>
    refine ⟨fun _ _ _ => (Fl.fin_le_fin 1 1).2 le_rfl, fun _ => ⟨(Fl.fin_le_fin 0 1).2 zero_le_one, (Fl.fin_le_fin 1 1).2 le_rfl⟩, fun hlt => absurd ?_ h⟩
    by_cases h0 : g iw = g ⟨0, iw.pos⟩
    · exact ⟨ib, ⟨0, iw.pos⟩, rfl, by rw [hg, hg]; simp only [Fl.eqB]; simp; intro h; linarith⟩
    · exact ⟨iw, ⟨0, iw.pos⟩, rfl, by rw [hg, hg]; simp only [Fl.eqB]; simpa using h0⟩

/-- The hypotheses of `C93_cso`. -/
example : let _ := SHADE.Ex.arith; weights ![Fl.fin 1, .fin 3, .fin 2] (.fin 3) (.fin 1) 0 = .fin 1 ∧ weights ![Fl.fin 1, .fin 3, .fin 2] (.fin 3) (.fin 1) 1 = .fin 0 := by
  letI := SHADE.Ex.arith
  exact (C93_cso (SHADE.Ex.laws.1) (fs := ![Fl.fin 1, .fin 3, .fin 2]) (g := ![1, 3, 2]) (fun i => by fin_cases i <;> rfl) 1 0 (fun i => by fin_cases i <;> norm_num)
    (fun i => by fin_cases i <;> norm_num)).2.2 (by norm_num)

end CSO

namespace GSA
variable {N : ℕ}

theorem masses_fin (hA : SHADE.ExactArith) {fit : Fin N → Fl} {g : Fin N → ℚ} (hg : ∀ i, fit i = .fin (g i)) (iw ib : Fin N) (hw : ∀ i, g i ≤ g iw) (h : g ib < g iw)
    (i : Fin N) : masses fit (fit ib) (fit iw) i = .fin ((g iw - g i) / ∑ j, (g iw - g j)) := by
  have hd : g ib - g iw ≠ 0 := by linarith
  have hd' : g iw - g ib ≠ 0 := by linarith
  have hm : ∀ i, (fit i - fit iw) / (fit ib - fit iw) = .fin ((g iw - g i) / (g iw - g ib)) := fun i => by
    rw [hg, hg, hg, hA.sub, hA.sub, hA.div _ _ hd, ← neg_sub (g iw) (g i), ← neg_sub (g iw) (g ib), neg_div_neg_eq]
  have hs : 0 < ∑ j, (g iw - g j) := Finset.sum_pos' (fun j _ => by linarith [hw j]) ⟨ib, Finset.mem_univ _, by linarith⟩
  simp only [masses]
  rw [FWA.vsum_exact hA hm, hm, ← Finset.sum_div, hA.div _ _ (div_ne_zero hs.ne' hd'), div_div_div_cancel_right₀ hd']

/-- **C93, gravitational search (partial).** If not all agents have the same value, their masses are not negative and sum to one, and an
agent that is not worse than another one has at least its mass. -/
theorem C93_gsa_partial (hA : SHADE.ExactArith) {fit : Fin N → Fl} {g : Fin N → ℚ} (hg : ∀ i, fit i = .fin (g i)) (iw ib : Fin N) (hw : ∀ i, g i ≤ g iw) (h : g ib < g iw) :
    ∃ m : Fin N → ℚ, (∀ i, masses fit (fit ib) (fit iw) i = .fin (m i) ∧ 0 ≤ m i) ∧ ∑ i, m i = 1 ∧ ∀ i j, g i ≤ g j → m j ≤ m i := by
  have hs : 0 < ∑ j, (g iw - g j) := Finset.sum_pos' (fun j _ => by linarith [hw j]) ⟨ib, Finset.mem_univ _, by linarith⟩
  refine ⟨fun i => (g iw - g i) / ∑ j, (g iw - g j), fun i => ⟨masses_fin hA hg iw ib hw h i, div_nonneg (by linarith [hw i]) hs.le⟩, ?_, fun i j hij => ?_⟩
  · rw [← Finset.sum_div, div_self hs.ne']
  · exact div_le_div_of_nonneg_right (by linarith) hs.le

/-- The hypotheses of `C93_gsa_partial`. -/
example : let _ := SHADE.Ex.arith; ∃ m : Fin 2 → ℚ, (∀ i, masses ![Fl.fin 1, .fin 3] (.fin 1) (.fin 3) i = .fin (m i) ∧ 0 ≤ m i) ∧ ∑ i, m i = 1 := by
  letI := SHADE.Ex.arith
  obtain ⟨m, h1, h2, -⟩ := C93_gsa_partial (SHADE.Ex.laws.1) (fit := ![Fl.fin 1, .fin 3]) (g := ![1, 3]) (fun i => by fin_cases i <;> rfl) 1 0
    (fun i => by fin_cases i <;> norm_num) (by norm_num)
  exact ⟨m, h1, h2⟩

/-! ### C95: velocities and positions stay numbers -/

/-- NaN spreads, and `0 / 0` is NaN. -/
structure NanLaw : Prop where
  addL : ∀ a : Fl, Fl.nan + a = .nan
  addR : ∀ a : Fl, a + Fl.nan = .nan
  mulR : ∀ a : Fl, a * Fl.nan = .nan
  divL : ∀ a : Fl, Fl.nan / a = .nan
  divR : ∀ a : Fl, a / Fl.nan = .nan
  zero : ∀ q : ℚ, (Fl.fin q - .fin q) / (Fl.fin q - .fin q) = (.nan : Fl)

/-- **C95 is false of the gravitational search algorithm**: an iteration that finds all agents with the same value (or a single agent) makes all
velocities NaN, and hands only points made of NaN to the repair function. -/
theorem C95_gsa_false (hL : NanLaw) {env : Env (Vec D)} (p : Par) (s : St D N) (c : ℚ) (hs : ∀ i, s.fit i = .fin c) (xb : Vec D) (fxb : Fl) :
    Post env (iter p s xb fxb) fun r => (∀ i d, r.1.vel i d = .nan) ∧ ∀ i, ∃ rng k, r.1.pop i = env.repairFn rng k fun _ => .nan := by
  have hmin : ∀ (f : Fin N → Fl) (v : Fl), (∀ i, f i = v) → Post env (minOf f : Prog (Vec D) Fl) (· = v) := fun f v h =>
    .yields ⟨fun g => wp_argminRec fun a ha _ => ⟨by obtain ⟨i, rfl⟩ := (List.mem_ofFn' _ _).1 ha; exact h i, rfl⟩⟩
  unfold iter
  refine .bind' (hmin _ (.fin c) hs) fun best hb => .bind' (hmin _ (.fin (-c)) fun i => by rw [hs]; rfl) fun worst hw => .bind' .any fun v _ => ?_
  have hm : ∀ i, masses s.fit best (-worst) i = .nan := fun i => by
    have e : -worst = .fin c := by rw [hw]; change Fl.fin (- -c) = _; rw [neg_neg]
    simp only [masses, hs, e, hb, hL.zero, hL.divL]
  refine .bind' .any fun u _ => .bind' .any fun w _ => ?_
  simp only [hm, hL.addL, hL.divR, hL.addR]
  exact .bind' (Post.tabM (P := fun _ (x : Vec D) => ∃ rng k, x = env.repairFn rng k fun _ => .nan) fun i => .repair fun rng k => ⟨rng, k, rfl⟩) fun pop hp =>
    .bind' .any fun fit _ => .bind' .any fun b _ => .pure' ⟨fun _ _ => rfl, hp⟩

/-- NaN velocities stay NaN. -/
theorem C95_gsa_stays_false (hL : NanLaw) {env : Env (Vec D)} (p : Par) (s : St D N) (hs : ∀ i d, s.vel i d = .nan) (xb : Vec D) (fxb : Fl) :
    Post env (iter p s xb fxb) fun r => (∀ i d, r.1.vel i d = .nan) ∧ ∀ i, ∃ rng k, r.1.pop i = env.repairFn rng k fun _ => .nan := by
  unfold iter
  refine .bind' .any fun best _ => .bind' .any fun worst _ => .bind' .any fun v _ => .bind' .any fun u _ => .bind' .any fun w _ => ?_
  simp only [hs, hL.mulR, hL.addL, hL.addR]
  exact .bind' (Post.tabM (P := fun _ (x : Vec D) => ∃ rng k, x = env.repairFn rng k fun _ => .nan) fun i => .repair fun rng k => ⟨rng, k, rfl⟩) fun pop hp =>
    .bind' .any fun fit _ => .bind' .any fun b _ => .pure' ⟨fun _ _ => rfl, hp⟩

omit [Arith] in
/-- `NanLaw` holds without rounding. -/
theorem NanLaw.exact (fn : Fn → Fl → Fl) : @NanLaw (exactArith fn) := by
  letI := exactArith fn
  refine ⟨fun a => ?_, fun a => ?_, fun a => ?_, fun a => ?_, fun a => ?_, fun q => ?_⟩
  iterate 5 cases a <;> rfl
  change Fl.divX (.fin (q + -q)) (.fin (q + -q)) = _
  rw [add_neg_cancel]
  rfl

omit [Arith] in
/-- A single agent on the sphere function: in the first iteration the objective is evaluated at a point made of NaN. -/
theorem C95_gsa_run_false : let _ := NiaPy.Ex.arith; ∃ c ∈ ((alg (NiaPy.Ex.box 1) 1 ⟨.fin (5 / 2), .fin (1 / 1000)⟩).exec NiaPy.Ex.env2 true 0 5).2.calls, c.1 0 = .nan := by
  decide +kernel

open MTS (Fi)

theorem vsum_fi (hA : SHADE.ExactArith) {n : ℕ} {f : Fin n → Fl} (h : ∀ i, Fi (f i)) : Fi (vsum f) := by
  choose g hg using h
  exact ⟨_, FWA.vsum_exact hA hg⟩

/-- **C95, gravitational search (partial).** If the values of the agents are finite but not all the same, positions and velocities are finite, and
`epsilon` is positive, then the new velocities are finite and only finite points are handed to the repair function. -/
theorem C95_gsa_partial (hA : SHADE.ExactArith) (hsq : ∀ q : ℚ, 0 ≤ q → ∃ r : ℚ, 0 ≤ r ∧ Arith.fn .sqrt (.fin q) = .fin r) {env : Env (Vec D)} (p : Par) {e : ℚ} (hg : Fi p.g0)
    (he : p.epsilon = .fin e) (h0 : 0 < e) (s : St D N) {g : Fin N → ℚ} (hs : ∀ i, s.fit i = .fin (g i)) (i0 j0 : Fin N) (hij : g i0 < g j0) (hpop : ∀ i d, Fi (s.pop i d))
    (hvel : ∀ i d, Fi (s.vel i d)) (xb : Vec D) (fxb : Fl) :
    Post env (iter p s xb fxb) fun r => (∀ i d, Fi (r.1.vel i d)) ∧ ∀ i, ∃ rng k x, (∀ d, Fi (x d)) ∧ r.1.pop i = env.repairFn rng k x := by
  unfold iter
  have hmin : ∀ (f : Fin N → Fl), (∀ i, f i ≠ .nan) → Post env (minOf f : Prog (Vec D) Fl) fun v => ∃ i, v = f i ∧ ∀ j, f i ≤ f j := fun f h =>
    .yields ⟨fun g => wp_argminRec fun a ha hm => ⟨by
      obtain ⟨i, rfl⟩ := (List.mem_ofFn' _ _).1 ha
      refine ⟨i, rfl, fun j => hm (fun e he => ?_) _ ((List.mem_ofFn' _ _).2 ⟨j, rfl⟩)⟩
      obtain ⟨k, rfl⟩ := (List.mem_ofFn' _ _).1 he
      exact h k, rfl⟩⟩
  refine .bind' (hmin _ fun i => by rw [hs]; simp) fun best ⟨ib, hb, hb'⟩ => .bind' (hmin _ fun i => by rw [hs]; simp) fun worst ⟨iw, hw, hw'⟩ => .bind' .any fun v _ => ?_
  have hbest : ∀ j, g ib ≤ g j := fun j => by have := hb' j; rwa [hs, hs, Fl.fin_le_fin] at this
  have hworst : ∀ j, g j ≤ g iw := fun j => by have := (Fl.neg_le_neg _ _).1 (hw' j); rwa [hs, hs, Fl.fin_le_fin] at this
  have hlt : g ib < g iw := lt_of_le_of_lt (hbest i0) (lt_of_lt_of_le hij (hworst j0))
  have hww : -worst = s.fit iw := by rw [hw, hs]; change Fl.fin (- -g iw) = _; rw [neg_neg]
  obtain ⟨m, hm, -, -⟩ := C93_gsa_partial hA hs iw ib hworst hlt
  have hmm : ∀ i, masses s.fit best (-worst) i = .fin (m i) := fun i => by rw [hb, hww]; exact (hm i).1
  have hgr : Fi (gravity p v) := .half hA hg (Nat.succ_ne_zero _)
  have hdist : ∀ i j, ∃ r : ℚ, euclid (s.pop i) (s.pop j) + p.epsilon = .fin r ∧ r ≠ 0 := fun i j => by
    have hd : ∀ d, Fi (s.pop i d - s.pop j d) := fun d => .sub hA (hpop i d) (hpop j d)
    choose x hx using hd
    have hv : (vsum fun d => (s.pop i d - s.pop j d) * (s.pop i d - s.pop j d)) = .fin (∑ d, x d * x d) := FWA.vsum_exact hA fun d => by rw [hx, hA.mul]
    obtain ⟨r, hr, hr'⟩ := hsq (∑ d, x d * x d) (Finset.sum_nonneg fun d _ => mul_self_nonneg _)
    refine ⟨r + e, ?_, by linarith⟩
    rw [euclid, norm2, hv, hr', he, hA.add]
  have hdiv : ∀ (a b : Fl) (q : ℚ), Fi a → b = .fin q → q ≠ 0 → Fi (a / b) := fun a b q ⟨x, hx⟩ hb hq => ⟨x / q, by rw [hx, hb, hA.div _ _ hq]⟩
  have hrv : Post env (tabM N fun _ => randVec D : Prog (Vec D) (Fin N → Vec D)) fun u => ∀ i d, Fi (u i d) :=
    .tabM (P := fun _ (x : Vec D) => ∀ d, Fi (x d)) fun _ => .tabM (P := fun _ (x : Fl) => Fi x) fun _ => .rand fun r h h' => MTS.fin_between (l := 0) (u := 1) ⟨h, Fl.le_of_lt h'⟩
  refine .bind' hrv fun u hu => .bind' hrv fun w hwv => ?_
  have hnew : ∀ i d, Fi (w i d * s.vel i d + (vsum fun j => u j d * (gravity p v * (masses s.fit best (-worst) i * masses s.fit best (-worst) j / (euclid (s.pop i) (s.pop j) + p.epsilon)) *
      (s.pop j d - s.pop i d))) / (masses s.fit best (-worst) i + p.epsilon)) := fun i d => by
    refine .add hA (.mul hA (hwv i d) (hvel i d)) (hdiv _ _ (m i + e) (vsum_fi hA fun j => ?_) (by rw [hmm, he, hA.add]) (by have := (hm i).2; linarith))
    obtain ⟨r, hr, hr0⟩ := hdist i j
    exact .mul hA (hu j d) (.mul hA (.mul hA hgr (hdiv _ _ r ⟨_, by rw [hmm, hmm, hA.mul]⟩ hr hr0)) (.sub hA (hpop j d) (hpop i d)))
  exact .bind' (Post.tabM (P := fun _ (x : Vec D) => ∃ rng k y, (∀ d, Fi (y d)) ∧ x = env.repairFn rng k y) fun i => .repair fun rng k => ⟨rng, k, _, fun d => .add hA (hpop i d) (hnew i d), rfl⟩)
    fun pop hp => .bind' .any fun fit _ => .bind' .any fun b _ => .pure' ⟨hnew, hp⟩

end GSA

namespace CLONALG
open SHADE (ExactArith)
variable {b N : ℕ} {env : Env (Vec D)}

/-- What is used of the exponential function: it is monotone, and at least one for numbers that are not negative. -/
structure ExpLaw : Prop where
  mono : ∀ q q' : ℚ, q ≤ q' → (Arith.fn .exp (.fin q) : Fl) ≤ Arith.fn .exp (.fin q')
  one : ∀ q : ℚ, 0 ≤ q → .fin 1 ≤ (Arith.fn .exp (.fin q) : Fl)

/-- The `mutation_rate` of the clones of an antibody of value `f` (clonalg.py:138): a bit is flipped if a random number exceeds it. -/
def rate (p : Par) (f : Fl) : Fl := Arith.fn .exp (-p.mutationFactor * f)

/-- **C93, clonal selection (partial).** With a `mutation_factor` that is not negative, the bits of the clones of an antibody are flipped at
most where the same random numbers would flip those of a clone of an antibody that is not better. -/
theorem C93_clonalg_partial (hA : ExactArith) (hX : ExpLaw) (p : Par) {m q q' : ℚ} (hm : p.mutationFactor = .fin m) (h0 : 0 ≤ m) (h : q ≤ q') (r : Fl)
    (hr : rate p (.fin q) < r) : rate p (.fin q') < r := by
  have e : ∀ q, rate p (.fin q) = Arith.fn .exp (.fin (-m * q)) := fun q => by
    unfold rate
    rw [hm, show -(Fl.fin m) = .fin (-m) from rfl, hA.mul]
  rw [e] at hr ⊢
  exact Fl.lt_of_le_of_lt (hX.mono _ _ (by nlinarith)) hr

/-- C93 is false of clonal selection for values that are not positive (for instance, if a function that is not negative is maximized): clones are
never mutated. -/
theorem C93_clonalg_false (hA : ExactArith) (hX : ExpLaw) (p : Par) {m q : ℚ} (hm : p.mutationFactor = .fin m) (h0 : 0 ≤ m) (hq : q ≤ 0) (w : Bits D b) :
    Post env (mutate w (rate p (.fin q))) (· = w) := by
  have e : .fin 1 ≤ rate p (.fin q) := by
    unfold rate
    rw [hm, show -(Fl.fin m) = .fin (-m) from rfl, hA.mul]
    exact hX.one _ (by nlinarith)
  refine (Post.tabM (P := fun j (v : Fin b → Bool) => v = w j) fun j => (Post.tabM (P := fun k (v : Bool) => v = w j k) fun k =>
    .bind' (.rand (P := fun r => r < .fin 1) fun r _ h => h) fun r hr => .pure' ?_).mono fun v hv => funext hv).mono fun v hv => funext hv
  rw [if_neg fun h => Fl.lt_irrefl _ (Fl.lt_trans h (Fl.lt_of_lt_of_le hr e))]

/-- So with values that are not positive, cloning and mutating leads to no point that is not decoded from an antibody of the population. -/
theorem C93_clonalg_pop_false (hA : ExactArith) (hX : ExpLaw) (B : Box D) (p : Par) {m : ℚ} (hm : p.mutationFactor = .fin m) (h0 : 0 ≤ m) (s : List (Ab D b))
    (hs : ∀ a ∈ s, ∃ q : ℚ, a.f = .fin q ∧ q ≤ 0) : Post env (cloneAndHypermutate B N p s) fun r => ∀ a ∈ r, ∃ c ∈ s, a.bits = c.bits := by
  unfold cloneAndHypermutate
  refine .bind' (P := fun cl => ∀ w ∈ cl, ∃ c ∈ s, w = c.bits) (Post.mapMAll fun a ha => ?_) fun cl hcl => .bind' (P := fun new : List (Ab D b) => ∀ a ∈ new, ∃ c ∈ s, a.bits = c.bits) ?_ fun new hnew => ?_
  · obtain ⟨c, hc, ha⟩ := List.mem_flatMap.1 ha
    cases List.eq_of_mem_replicate ha
    obtain ⟨q, hq, hq0⟩ := hs a hc
    rw [hq]
    exact (C93_clonalg_false hA hX p hm h0 hq0 a.bits).mono fun w hw => ⟨a, hc, hw⟩
  · unfold evaluate evalKeep
    refine .bind' (P := fun r : List (Bits D b × Fl) => ∀ e ∈ r, ∃ c ∈ s, e.1 = c.bits) ?_ fun r hr => .pure' fun a ha => ?_
    · split
      · intro w w' a ha; cases ha
      · exact Post.mapMAll fun w hw => .bind' .any fun v _ => .pure' (hcl w hw)
    · obtain ⟨e, he, rfl⟩ := List.mem_map.1 ha
      exact hr e he
  · refine .bind' (.yields Yields.sortRecs) fun l hl => .pure' fun a ha => ?_
    rcases List.mem_append.1 (hl.1.mem_iff.1 (List.mem_of_mem_take ha)) with h | h
    · exact ⟨a, h, rfl⟩
    · exact hnew a h

omit [Arith] in
/-- `ExpLaw` holds in the arithmetic of the example of simulated annealing. -/
theorem Ex.expLaw : @ExpLaw SA.Ex.arith := by
  letI := SA.Ex.arith
  refine ⟨fun q q' h => ?_, fun q h => ?_⟩
  · change Fl.fin (if 0 ≤ q then 1 + q else 1 / (1 - q)) ≤ Fl.fin (if 0 ≤ q' then 1 + q' else 1 / (1 - q'))
    rw [Fl.fin_le_fin]
    split
    · rw [if_pos (by linarith)]; linarith
    · split
      · exact le_trans ((div_le_one (by linarith)).2 (by linarith)) (by linarith)
      · exact one_div_le_one_div_of_le (by linarith) (by linarith)
  · change Fl.fin 1 ≤ Fl.fin (if 0 ≤ q then 1 + q else 1 / (1 - q))
    rw [if_pos h, Fl.fin_le_fin]
    linarith

omit [Arith] in
/-- An antibody of the value -4. -/
example (w : Bits 1 3) : let _ := SA.Ex.arith; Post NiaPy.Ex.env2 (mutate w (rate ⟨1, .fin 10, 1⟩ (.fin (-4)))) (· = w) :=
  letI := SA.Ex.arith
  C93_clonalg_false (SHADE.exactArith_exact _) Ex.expLaw ⟨1, .fin 10, 1⟩ rfl (by norm_num) (by norm_num) w

end CLONALG

end NiaPy
