import Verif.NoRaise
import Verif.Algo.SHADEProps

/-!
# Runs that do not raise: algorithms that need finite fitness values

An evaluation of a stopped task returns `+inf`. Algorithms whose parameters are computed from fitness values are safe nevertheless, since an
iteration is begun only if the task has not stopped, so all values obtained before are values of the objective.
-/

namespace NiaPy
variable {X α β : Type} {env : Env X}

/-- What `p` returns satisfies `P`, or the task has stopped by then. -/
structure Late (env : Env X) (p : Prog X α) (P : α → Prop) : Prop where
  out : ∀ w a w', p.run env w = (.ok a, w') → P a ∨ stoppingCondition env.toTaskCfg w'.st = true

namespace Late

theorem pure' {a : α} {P : α → Prop} (h : P a) : Late env (Pure.pure a) P := ⟨fun w b w' hr => by cases hr; exact Or.inl h⟩

theorem mono {p : Prog X α} {P P' : α → Prop} (h : Late env p P) (hP : ∀ a, P a → P' a) : Late env p P' :=
  ⟨fun w a w' hr => (h.out w a w' hr).imp_left (hP a)⟩

theorem post {p : Prog X α} {P : α → Prop} (h : Post env p P) : Late env p P := ⟨fun w a w' hr => Or.inl (h w w' a hr)⟩

theorem total {p : Prog X α} {P : α → Prop} (h : Total env p P) : Late env p P := ⟨fun w a w' hr => by
  rcases h.out w with ⟨b, w1, h1, hb⟩ | ⟨w1, h1⟩ <;> rw [hr] at h1 <;> cases h1
  exact Or.inl hb⟩

theorem bind {p : Prog X α} {f : α → Prog X β} {P : α → Prop} {R : β → Prop} (hp : Late env p P)
    (hf : ∀ a, P a → Late env (f a) R) : Late env (p.bind f) R := ⟨fun w b w2 hr => by
  rw [Prog.run_bind] at hr
  rcases h1 : p.run env w with ⟨e | a, w1⟩
  · rw [h1] at hr; cases hr
  · rw [h1] at hr
    rcases hp.out w a w1 h1 with h | h
    · exact (hf a h).out w1 b w2 hr
    · right
      have := (C02_stopped_stays env w1 h (f a)).1
      rw [show (f a).run env w1 = (.ok b, w2) from hr] at this
      exact this⟩

theorem bind' {p : Prog X α} {f : α → Prog X β} {P : α → Prop} {R : β → Prop} (hp : Late env p P)
    (hf : ∀ a, P a → Late env (f a) R) : Late env (p >>= f) R := hp.bind hf

theorem bindT {p : Prog X α} {f : α → Prog X β} {R : β → Prop} (hf : ∀ a, Late env (f a) R) : Late env (p >>= f) R :=
  bind (P := fun _ => True) ⟨fun _ _ _ _ => Or.inl trivial⟩ fun a _ => hf a

theorem tabM {n : ℕ} {f : Fin n → Prog X α} {P : Fin n → α → Prop} (h : ∀ i, Late env (f i) (P i)) :
    Late env (NiaPy.tabM n f) fun r => ∀ i, P i (r i) := by
  induction n with
  | zero => exact pure' fun i => i.elim0
  | succ n ih =>
    refine bind (h 0) fun a ha => bind (ih fun i => h i.succ) fun r hr => pure' fun i => ?_
    refine Fin.cases ?_ (fun i => ?_) i
    · exact ha
    · exact hr i

theorem mapMAll {γ : Type} {l : List γ} {f : γ → Prog X α} {P : α → Prop} (h : ∀ b, Late env (f b) P) :
    Late env (NiaPy.mapM' l f) fun r => ∀ x ∈ r, P x := by
  induction l with
  | nil => exact pure' fun x hx => by simp at hx
  | cons b l ih =>
    refine bind' (h b) fun a ha => bind' ih fun r hr => pure' fun x hx => ?_
    rcases List.mem_cons.1 hx with rfl | hx
    · exact ha
    · exact hr x hx

/-- A task that has not stopped afterwards has returned the value of the objective. -/
theorem eval {x : X} {P : Fl → Prop} (h : ∀ k r, env.obj k x = .ok r → P (env.opt.mul r)) : Late env (Prog.eval x) P := ⟨fun w a w' hr => by
  rw [Prog.run_eval] at hr
  rcases evalTask_cases env.toTaskCfg w.st x with ⟨h0, h1⟩ | ⟨-, e, h2, h1⟩ | ⟨-, r, h2, h1⟩ <;> rw [h1] at hr <;> cases hr
  · exact Or.inr h0
  · exact Or.inl (h _ _ h2)⟩

end Late

/-- Like `Alg.Safe`; the condition on the state is needed only if the task has not stopped. -/
def Alg.SafeLate (A : Alg X) (env : Env X) : Prop := ∃ Inv : A.σ → Prop,
  Total env A.init (fun s => A.fit s ≠ [] ∧ (A.pop s).length = (A.fit s).length ∧ ∀ v ∈ A.fit s, v ≠ .nan) ∧ Late env A.init Inv ∧
  (env.maxEvals ≠ some 0 → ∀ s xb fxb, Inv s → Ends env (A.iter s xb fxb) ∧ Late env (A.iter s xb fxb) fun r => Inv r.1)

theorem Alg.SafeLate.body {A : Alg X} (h : A.SafeLate env) (hc : env.Polite) (ncb fuel : ℕ) : Ends env (A.body ncb fuel) := by
  obtain ⟨Inv, h0, h1, hi⟩ := h
  have hloop : ∀ fuel s xb fxb w, (stoppingCondition env.toTaskCfg w.st = true ∨ Inv s) →
      (∃ a w', (A.loop ncb fuel s xb fxb).run env w = (.ok a, w') ∧ True) ∨ ∃ w', (A.loop ncb fuel s xb fxb).run env w = (.error .outOfFuel, w') := by
    intro fuel
    induction fuel with
    | zero => exact fun s xb fxb w _ => Or.inr ⟨w, rfl⟩
    | succ fuel ih =>
      intro s xb fxb w hs
      by_cases hst : stoppingCondition env.toTaskCfg w.st = true
      · -- the loop is left at once
        refine Or.inl ⟨(s, xb, fxb), w, ?_, trivial⟩
        simp only [Alg.loop, Prog.bind_def, Prog.run_bind, Prog.run_look, hst, if_true]
        rfl
      · have hs : Inv s := hs.resolve_left hst
        have hm : env.maxEvals ≠ some 0 := fun hm => hst (by simp [stoppingCondition, hm, reached])
        obtain ⟨hi1, hi2⟩ := hi hm s xb fxb hs
        simp only [Alg.loop, Prog.bind_def, Prog.run_bind, Prog.run_look, hst, Bool.false_eq_true, if_false]
        rcases (Total.fireAll hc ncb (.beforeIteration (A.pop s) (A.fit s) xb fxb)).out w with ⟨u, w1, hr1, -⟩ | ⟨w1, hr1⟩ <;> rw [hr1]
        · rcases hi1.out w1 with ⟨r, w2, hr2, -⟩ | ⟨w2, hr2⟩ <;> simp only [hr2]
          · obtain ⟨s', xb', fxb'⟩ := r
            simp only [Prog.run_bind]
            have hl := hi2.out _ _ _ hr2
            rcases (Total.fireAll hc ncb (.afterIteration (A.pop s') (A.fit s') xb' fxb')).out w2 with ⟨u, w3, hr3, -⟩ | ⟨w3, hr3⟩ <;> rw [hr3]
            · simp only
              rcases hn : (Prog.next : Prog X Unit).run env w3 with ⟨e | u', w4⟩ <;> simp only [hn]
              · cases hn
              · refine ih _ _ _ w4 (hl.symm.imp_left fun h2 => ?_)
                have h3 := (C02_stopped_stays env w2 h2 (NiaPy.fireAll ncb (.afterIteration (A.pop s') (A.fit s') xb' fxb'))).1
                rw [hr3] at h3
                have h4 := (C02_stopped_stays env w3 h3 (Prog.next : Prog X Unit)).1
                rw [hn] at h4
                exact h4
            · exact Or.inr ⟨_, rfl⟩
          · exact Or.inr ⟨_, rfl⟩
        · exact Or.inr ⟨_, rfl⟩
  refine .bindT (.fireAll hc _ _) fun _ => ⟨fun w => ?_⟩
  rw [Prog.bind_def, Prog.run_bind]
  rcases h0.out w with ⟨s, w1, hr, h2, h3, h4⟩ | ⟨w1, hr⟩
  · rw [hr]
    obtain ⟨b, hb⟩ := getBest_first h2 h3 h4
    have hb' : Prog.ofExcept (getBest (A.pop s) (A.fit s) none .pinf) = (.pure b : Prog X (X × Fl)) := by rw [hb]; rfl
    simp only [hb', Prog.bind_def, Prog.run_bind, Prog.run_pure]
    rcases hloop fuel s b.1 b.2 w1 (h1.out w s w1 hr).symm with ⟨r, w2, hr2, -⟩ | ⟨w2, hr2⟩ <;> rw [hr2]
    · have key : Ends env ((fireAll ncb .afterRun).bind fun _ => (.pure r : Prog X (A.σ × X × Fl))) :=
        .bindT (.fireAll hc ncb .afterRun) fun _ => .pure' trivial
      have key := key.out w2
      rw [Prog.run_bind] at key
      exact key
    · exact Or.inr ⟨_, rfl⟩
  · rw [hr]
    exact Or.inr ⟨w1, rfl⟩

theorem Alg.SafeLate.exec {A : Alg X} (h : A.SafeLate env) (hc : env.Polite) (main : Bool) (ncb fuel : ℕ)
    (hf : (A.exec env main ncb fuel).1 ≠ .error .outOfFuel) : ∃ res, (A.exec env main ncb fuel).1 = .ok ⟨some res, none⟩ := by
  rw [exec_eq] at hf ⊢
  simp only at hf ⊢
  rcases (h.body hc ncb fuel).out (World.init env.opt) with ⟨r, w', hr, -⟩ | ⟨w', hr⟩
  · have hr : (A.execBody env ncb fuel).1 = .ok r := congrArg Prod.fst hr
    rw [hr]
    exact ⟨_, rfl⟩
  · have hr : (A.execBody env ncb fuel).1 = .error .outOfFuel := congrArg Prod.fst hr
    rw [hr] at hf
    simp at hf

/-! ### Success-history adaptation -/

namespace SHADE
open DE JDE
variable [Arith] {D : ℕ} {env : Env (Vec D)} {B : Box D} {opt : OptType} {p : Par}

/-- Rounding to an integer: monotone and the identity on integers. -/
def RoundLaw : Prop := ∃ r : ℚ → ℤ, Monotone r ∧ (∀ n : ℤ, r n = n) ∧ ∀ q, (Arith.fn .round (.fin q) : Fl) = .fin (r q)

/-- The tangent of an angle in the first quadrant is not negative. -/
def TanLaw : Prop := ∀ q : ℚ, 0 ≤ q → q < 1 / 2 → ∃ t : ℚ, 0 ≤ t ∧ (Arith.fn .tan (piF * .fin q) : Fl) = .fin t

/-- A number divided by infinity. -/
def InfLaw : Prop := ∀ q : ℚ, (Fl.fin q / .pinf : Fl) = .fin 0

/-- Among any `n` numbers drawn one after the other from the unit interval, one is at least 1/2. -/
def Often (env : Env (Vec D)) (n : ℕ) : Prop := ∀ k, ∃ j, j < n ∧ Fl.fin (1 / 2) ≤ env.rng.rand (k + j)

theorem total_cauchy (hA : ExactArith) (hT : TanLaw) (ho : Often env p.depth) {loc : Fl} (hl : Pos01 loc) :
    Ends env (cauchy loc (lit 1 10) p.depth) := by
  obtain ⟨l, rfl, hl0, -⟩ := hl
  have key : ∀ n (w : World (Vec D)), (∃ j, j < n ∧ Fl.fin (1 / 2) ≤ env.rng.rand (w.rk + j)) →
      ∃ a w', (cauchy (.fin l) (lit 1 10) n).run env w = (.ok a, w') := by
    intro n
    induction n with
    | zero => rintro w ⟨j, hj, -⟩; omega
    | succ n ih =>
      rintro w ⟨j, hj, hr⟩
      have hstep : (cauchy (.fin l) (lit 1 10) (n + 1)).run env w = (if Fl.fin 0 < Fl.fin l + lit 1 10 * Arith.fn .tan (piF * (env.rng.rand w.rk - lit 1 2))
          then Prog.pure (Fl.fin l + lit 1 10 * Arith.fn .tan (piF * (env.rng.rand w.rk - lit 1 2))) else cauchy (.fin l) (lit 1 10) n).run env
            { w with rk := w.rk + 1 } := by
        simp only [cauchy, Prog.bind_def, Prog.run_bind]
        rfl
      rw [hstep]
      split
      · exact ⟨_, _, rfl⟩
      · rename_i hneg
        refine ih _ ?_
        cases j with
        | zero =>
          exfalso
          apply hneg
          have hm := env.rng.rand_mem w.rk
          rw [Nat.add_zero] at hr
          generalize env.rng.rand w.rk = r at hm hr ⊢
          cases r with
          | fin q =>
            rw [Fl.fin_le_fin] at hr
            rw [Fl.fin_lt_fin] at hm
            obtain ⟨t, ht0, ht⟩ := hT (q - 1 / 2) (by linarith) (by linarith [hm.2])
            have h2 : (lit 1 2 : Fl) = .fin (1 / 2) := by simp [lit]
            have h3 : (lit 1 10 : Fl) = .fin (1 / 10) := by simp [lit]
            rw [h2, h3, hA.sub, ht, hA.mul, hA.add, Fl.fin_lt_fin]
            positivity
          | _ => simp at hm
        | succ j => exact ⟨j, by omega, by rw [show w.rk + 1 + j = w.rk + (j + 1) by omega]; exact hr⟩
  refine .ok fun w => ?_
  obtain ⟨a, w', h⟩ := key p.depth w (ho w.rk)
  exact ⟨a, w', h, trivial⟩

theorem total_genParams (hA : ExactArith) (hT : TanLaw) (ho : Often env p.depth) (hH : 0 < p.H) (v : TaskView) {hcr hf : List Fl}
    (hlen : hf.length = p.H) (hf' : ∀ v ∈ hf, Pos01 v) : Ends env (genParams p v hcr hf) := by
  unfold genParams
  refine .bind' (Total.int hH) fun mi hmi => ?_
  have hm : Pos01 (fromMemory p hcr hf mi).2 := by
    unfold fromMemory
    split
    · exact pos01_lit (by norm_num) (by norm_num)
    · exact hf' _ (getD_mem (by omega))
  generalize fromMemory p hcr hf mi = m at hm ⊢
  obtain ⟨mcr, mf⟩ := m
  refine .bindT ?_ fun cr => .bindT (total_cauchy hA hT ho hm) fun f => .pure' trivial
  unfold drawCR
  split
  · exact .norm (by simp [lit])
  · exact .pure' trivial

omit [Arith] in
theorem total_pick {n : ℕ} {ok : ℕ → Bool} (h : ∃ i < n, ok i = true) : Total env (pick n ok) fun i => i < n ∧ ok i = true := by
  unfold pick
  refine .bind' Total.perm fun l hl => ?_
  split
  · rename_i hn
    obtain ⟨i, hi, hok⟩ := h
    have : i ∈ l.filter ok := List.mem_filter.2 ⟨hl.mem_iff.2 (by simpa using hi), hok⟩
    rw [hn] at this
    simp at this
  · rename_i a t hn
    have : a ∈ l.filter ok := by rw [hn]; simp
    obtain ⟨h1, h2⟩ := List.mem_filter.1 this
    exact .pure' ⟨by simpa using hl.mem_iff.1 h1, h2⟩

omit [Arith] in
theorem row_ok {α : Type} {l : List α} {i : ℕ} (h : i < l.length) : ∃ a, row l i = .ok a ∧ True := by
  unfold row
  rw [List.getElem?_eq_getElem h]
  exact ⟨_, rfl, trivial⟩

theorem total_cross (hD : 0 < D) {l : List (Ind D SA)} {arc : List (Vec D)} {cnt pnum : ℕ} (h3 : 3 ≤ l.length) (hp : 0 < pnum) (hpn : pnum ≤ l.length)
    (hc : cnt ≤ arc.length) (ic : Fin l.length) (e : SA) : Ends env (cross B l arc cnt pnum ic e) := by
  have hic := ic.2
  unfold cross
  refine .bind' (Total.int hp) fun b hb => .bind' (total_pick ⟨if ic.val = 0 then 1 else 0, ?_⟩) fun r1 hr1 => .bind' (total_pick ?_) fun r2 hr2 =>
    .bindT (.intFin hD) fun j => .bindT (.ofExcept (row_ok (by simpa using by omega))) fun xb => .bindT (.ofExcept (row_ok (by simpa using hr1.1))) fun x1 =>
    .bindT (.ofExcept ?_) fun x2 => ?_
  · split <;> simp <;> omega
  · by_cases h0 : ic.val = 0 ∨ r1 = 0
    · by_cases h1 : ic.val = 1 ∨ r1 = 1
      · exact ⟨2, by omega, by simp; omega⟩
      · exact ⟨1, by omega, by simp; omega⟩
    · exact ⟨0, by omega, by simp; omega⟩
  · unfold donor
    split
    · exact row_ok (by omega)
    · exact row_ok (by simpa using by omega)
  · unfold binomial
    exact .bindT (by ends) fun _ => .pure' trivial

/-- Rounding a finite number. -/
theorem roundInt_ok {r : ℚ → ℤ} (hr : ∀ q, (Arith.fn .round (.fin q) : Fl) = .fin (r q)) (q : ℚ) : roundInt (.fin q) = .ok (r q) := by
  simp only [roundInt, DE.pyRound, hr, bind, Except.bind, toInt]
  split <;> simp

/-- Parameters that make sense: at least three individuals, a memory, a rate of the archive that is not negative, and a share of the
best individuals that is at most 1 and does not grow. -/
structure Par.Usable (p : Par) : Prop where
  three : 3 ≤ p.N
  memory : 0 < p.H
  rate : ∃ a : ℚ, 0 ≤ a ∧ p.arcRate = .fin a
  share : ∃ q : ℚ, q ≤ 1 ∧ p.pbest = .fin q ∧ ∀ e, p.ilEnd = some e → ∃ q', q' ≤ q ∧ e = .fin q'

/-- The sizes in a state. -/
structure Fine (p : Par) (L : ℕ) (s : St D) : Prop where
  hf : s.hf.length = p.H
  lo : 3 ≤ s.pop.length
  hi : s.pop.length ≤ p.N
  arc : s.arc.length = L
  cnt : s.cnt ≤ L
  pb : ∃ q : ℚ, q ≤ 1 ∧ s.pb = .fin q

theorem total_evolve (hE : env.Calm) (hA : ExactArith) (hT : TanLaw) (hR : RoundLaw) (ho : Often env p.depth) (hD : 0 < D) (hp : p.Usable) {L : ℕ}
    {s : St D} (hs : Sane p s) (hf : Fine p L s) {l : List (Ind D SA)} (hl : l.length = s.pop.length) : Ends env (evolve B p s l) := by
  obtain ⟨r, hmono, hint, hr⟩ := hR
  unfold evolve
  refine .bindT Total.look.ends fun v => .bindT (.tabMT fun _ => total_genParams hA hT ho hp.memory v hf.hf hs.hf) fun ps => ?_
  refine .bind' (P := fun n => 0 < n ∧ n ≤ l.length) (.ofExcept ?_) fun n hn => ?_
  · obtain ⟨q, hq, hpb⟩ := hf.pb
    have h2 : r (l.length * q) ≤ l.length := by
      have := hint l.length
      rw [← this]
      refine hmono ?_
      have : (0 : ℚ) ≤ l.length := by positivity
      push_cast
      nlinarith
    have hlo := hf.lo
    refine ⟨(max 2 (r (l.length * q))).toNat, ?_, by omega, by omega⟩
    unfold pNum
    rw [hpb, show Fl.ofNat l.length = .fin (l.length : ℚ) from rfl, hA.mul, roundInt_ok hr]
    rfl
  · refine .bindT (.tabMT fun i => total_cross hD (by rw [hl]; exact hf.lo) hn.1 hn.2 (by rw [hf.arc]; exact hf.cnt) _ _) fun xs => ?_
    exact .tabMT fun i => .bindT .repair fun _ => .bindT (Total.eval hE).ends fun _ => .pure' trivial

omit [Arith] in
theorem total_archive {L : ℕ} {size : ℤ} (hsz : size ≤ L) {l : List (Ind D SA)} {new : Fin l.length → Ind D SA} {a : List (Vec D) × ℕ}
    (h1 : a.1.length = L) (h2 : a.2 ≤ L) : Total env (archive size l new a) fun a => a.1.length = L ∧ a.2 ≤ L := by
  refine .forFin (fun a : List (Vec D) × ℕ => a.1.length = L ∧ a.2 ≤ L) ⟨h1, h2⟩ fun i a ha => .ite (fun _ => ?_) fun _ => .pure' ha
  unfold store
  refine .ite (fun _ => .pure' ha) fun hs => .ite (fun hlt => ?_) fun _ => .bind' (Total.int (by omega)) fun r hr => ?_
  · rw [if_pos (by omega)]
    exact .pure' ⟨by simpa using ha.1, by show a.2 + 1 ≤ L; omega⟩
  · rw [if_pos (by omega)]
    exact .pure' ⟨by simpa using ha.1, ha.2⟩

theorem total_post (hA : ExactArith) (hI : InfLaw) (hR : RoundLaw) (hp : p.Usable) (hm : env.maxEvals ≠ some 0) {L : ℕ} {s : St D} (hf : Fine p L s) :
    Total env (post p s) (Fine p L) := by
  obtain ⟨r, hmono, hint, hr⟩ := hR
  unfold post
  refine .ite (fun _ => .bind' Total.look fun v hv => ?_) fun _ => .pure' hf
  rw [if_neg (by rw [hv.2]; exact hm)]
  have hdiv : ∀ q : ℚ, ∃ q' : ℚ, (Fl.fin q / limF v.maxEvals : Fl) = .fin q' ∧ (q ≤ 0 → q' ≤ 0) := by
    intro q
    rw [hv.2]
    cases hme : env.maxEvals with
    | none => exact ⟨0, hI q, fun _ => le_rfl⟩
    | some n =>
      have hn : (n : ℚ) ≠ 0 := by
        rintro h
        exact hm (by rw [hme, show n = 0 by exact_mod_cast h])
      refine ⟨q / n, hA.div _ _ hn, fun h => div_nonpos_of_nonpos_of_nonneg h (by positivity)⟩
  refine .bind' (P := fun n => 4 ≤ n) (.ofExcept ?_) fun n hn => .ofExcept ?_
  · obtain ⟨q', h1, -⟩ := hdiv (4 - p.N)
    refine ⟨(max 4 (r (q' * v.evals + p.N))).toNat, ?_, by omega⟩
    unfold nextSize
    rw [show Fl.ofNat 4 = .fin 4 from rfl, show Fl.ofNat p.N = .fin (p.N : ℚ) from rfl, show Fl.ofNat v.evals = .fin (v.evals : ℚ) from rfl, hA.sub, h1,
      hA.mul, hA.add, roundInt_ok hr]
    rfl
  · unfold reduceTo
    split
    · rename_i hlt
      obtain ⟨a, ha, hrate⟩ := hp.rate
      have : nextArc p n = .ok ⌊n * a⌋.toNat := by
        unfold nextArc
        rw [hrate, show Fl.ofNat n = .fin (n : ℚ) from rfl, hA.mul, toInt, if_pos (by positivity)]
        rfl
      rw [this]
      refine ⟨_, rfl, hf.hf, ?_, ?_, hf.arc, ?_, ?_⟩
      · rw [remove_length _ _ (by omega)]; omega
      · rw [remove_length _ _ (by omega)]; have := hf.hi; omega
      · exact (min_le_left _ _).trans hf.cnt
      · obtain ⟨q, hq, hpb, he⟩ := hp.share
        show ∃ q : ℚ, q ≤ 1 ∧ nextPb p v s.pb = .fin q
        unfold nextPb
        split
        · exact hf.pb
        · rename_i e hie
          obtain ⟨q', hq', rfl⟩ := he e hie
          obtain ⟨d, h1, h2⟩ := hdiv (q' - q)
          rw [hpb, hA.sub, h1, show Fl.ofNat v.evals = .fin (v.evals : ℚ) from rfl, hA.mul, hA.add]
          refine ⟨_, ?_, rfl⟩
          have := mul_nonpos_of_nonpos_of_nonneg (h2 (by linarith)) (show (0 : ℚ) ≤ v.evals by positivity)
          linarith
    · exact ⟨s, rfl, hf⟩

theorem learn_fine {L : ℕ} {s : St D} (h : Fine p L s) (l : List Succ) : Fine p L (learn p l s) := by
  unfold learn
  split
  · exact h
  · exact ⟨by simpa using h.hf, h.lo, h.hi, h.arc, h.cnt, h.pb⟩

theorem total_iter (hE : env.Calm) (hA : ExactArith) (hT : TanLaw) (hI : InfLaw) (hR : RoundLaw) (ho : Often env p.depth) (hD : 0 < D) (hp : p.Usable)
    (hm : env.maxEvals ≠ some 0) {L : ℕ} (hL : capacity p p.N = .ok (L : ℤ)) {s : St D} (hs : Sane p s) (hf : Fine p L s) (xb : Vec D) (fxb : Fl) :
    Total env (iter B p s xb fxb) fun r => Fine p L r.1 := by
  unfold iter
  refine .bind' Total.sortRecs fun l hl => .bindT (total_evolve hE hA hT hR ho hD hp hs hf hl.1.length_eq) fun new => ?_
  have hlen := hl.1.length_eq
  have hlo := hf.lo
  obtain ⟨r, hmono, hint, hr⟩ := id hR
  obtain ⟨a, ha, hrate⟩ := hp.rate
  have hcap : ∀ n : ℕ, capacity p n = .ok (r (n * a)) := fun n => by
    unfold capacity
    rw [hrate, show Fl.ofNat n = .fin (n : ℚ) from rfl, hA.mul, roundInt_ok hr]
  rw [hcap] at hL
  have hL : r (p.N * a) = L := by injection hL
  refine .bind' (.ofExcept ⟨_, hcap l.length, rfl⟩) fun size hsz => .bind' (total_archive (L := L) ?_ hf.arc hf.cnt) fun a ha => ?_
  · rw [← hsz, ← hL]
    refine hmono (mul_le_mul_of_nonneg_right ?_ ha)
    have := hf.hi
    exact_mod_cast (by omega : l.length ≤ p.N)
  · have hsv : (survivors l new).length = l.length := by simp [survivors]
    have hne : ∀ m : List (Ind D SA), 3 ≤ m.length → m ≠ [] := fun m h h' => by rw [h'] at h; simp at h
    have h1 : Fine p L { s with pop := survivors l new, arc := a.1, cnt := a.2 } :=
      ⟨hf.hf, by show 3 ≤ (survivors l new).length; omega, by show (survivors l new).length ≤ p.N; have := hf.hi; omega, ha.1, ha.2, hf.pb⟩
    refine .bindT (ends_best (hne _ (by omega)) _ _) fun b => .bind' (total_post hA hI hR hp hm (learn_fine h1 _)) fun s' hs' => ?_
    exact .bindT (ends_best (hne _ hs'.lo) _ _) fun b => .pure' hs'

theorem safe (hE : env.Calm) (hB : B.Proper) (hfin : FiniteObj env) (hn : NormalOK env) (hA : ExactArith) (hT : TanLaw) (hI : InfLaw) (hR : RoundLaw)
    (ho : Often env p.depth) (hD : 0 < D) (hp : p.Usable) : (alg opt B p).SafeLate env := by
  obtain ⟨r, hmono, hint, hr⟩ := id hR
  obtain ⟨a, ha, hrate⟩ := hp.rate
  have hcap : capacity p p.N = .ok (r (p.N * a)) := by
    unfold capacity
    rw [hrate, show Fl.ofNat p.N = .fin (p.N : ℚ) from rfl, hA.mul, roundInt_ok hr]
  have h0 : 0 ≤ r (p.N * a) := by
    have := hmono (show ((0 : ℤ) : ℚ) ≤ p.N * a by push_cast; positivity)
    rwa [hint] at this
  obtain ⟨L, hL⟩ := Int.eq_ofNat_of_zero_le h0
  have harc : (initArc p : Except PyErr (List (Vec D))) = .ok (List.replicate L fun _ => .fin 0) := by
    unfold initArc
    rw [hcap, hL]
    simp only [bind, Except.bind]
    rw [if_neg (by omega)]
    rfl
  have hN := hp.three
  have hdf : Pos01 p.default.f ∧ Pos01 p.default.cr := by
    unfold Par.default
    split <;> exact ⟨pos01_lit (by norm_num) (by norm_num), pos01_lit (by norm_num) (by norm_num)⟩
  refine ⟨fun s : St D => Sane p s ∧ Fine p L s, ?_, ?_, fun hm s xb fxb hs => ?_⟩
  · refine .bind' (.bind' (Total.tabM fun _ => total_randInd hE hB opt p.default) fun r hr => .pure' (P := fun l : List (Ind D SA) => l ≠ [] ∧ ∀ e ∈ l, e.f ≠ .nan)
      ⟨by rw [Ne, List.ofFn_eq_nil_iff]; omega, fun e he => ?_⟩) fun l hl => .bindT (.ofExcept ⟨_, harc, trivial⟩) fun arc => .pure' ⟨?_, ?_, ?_⟩
    · obtain ⟨i, rfl⟩ := List.mem_ofFn.1 he
      exact hr i
    · simpa [alg] using hl.1
    · simp [alg]
    · intro v hv
      obtain ⟨e, he, rfl⟩ := List.mem_map.1 hv
      exact hl.2 e he
  · refine .bind' (P := fun l : List (Ind D SA) => l.length = p.N ∧ ∀ e ∈ l, (∃ q, e.f = .fin q) ∧ e.ext = p.default)
      (.bind' (.tabM (P := fun _ (e : Ind D SA) => (∃ q, e.f = .fin q) ∧ e.ext = p.default) fun i => ?_) fun r hr => .pure' ⟨by simp, fun e he => ?_⟩)
      fun l hl => ?_
    · refine .bind' (P := fun i : Indiv D => ∃ q, i.f = .fin q) (.bindT fun x => .bindT fun y => .bind' (.eval (P := fun v => ∃ q, v = .fin q) fun k r hr => ?_)
        fun v hv => .pure' hv) fun i hi => .pure' ⟨hi, rfl⟩
      obtain ⟨q, rfl⟩ := hfin k _ r hr
      cases env.opt
      · exact ⟨q, rfl⟩
      · exact ⟨-q, rfl⟩
    · obtain ⟨i, rfl⟩ := List.mem_ofFn.1 he
      exact hr i
    · rw [harc]
      refine .pure' ⟨⟨fun e he => (hl.2 e he).1, fun e he => by rw [(hl.2 e he).2]; exact hdf.1, fun e he => by rw [(hl.2 e he).2]; exact hdf.2.btw,
        fun v hv => ?_, fun v hv => ?_, by simp⟩, by simp, ?_, ?_, by simp, by simp, ?_⟩
      · rw [List.eq_of_mem_replicate hv]; exact pos01_lit (by norm_num) (by norm_num)
      · rw [List.eq_of_mem_replicate hv]
        obtain ⟨q, e, q0, q1⟩ := hdf.2
        exact ⟨q, e, by linarith, q1⟩
      · rw [hl.1]; exact hN
      · rw [hl.1]
      · obtain ⟨q, hq, hpb, -⟩ := hp.share
        exact ⟨q, hq, hpb⟩
  · have h := ((total_iter (B := B) hE hA hT hI hR ho hD hp hm (by rw [hcap, hL]) hs.1 hs.2 xb fxb).and (iter_sane hA hn hfin hs.1 xb fxb)).mono
      fun r h => (⟨h.2, h.1⟩ : Sane p r.1 ∧ Fine p L r.1)
    exact ⟨h.ends, .total h⟩

/-- C55, what holds (computed without rounding): SHADE, L-SHADE and iL-SHADE with `max_iters` and an objective with finite values return a
solution, if among any `depth` (the recursion limit) random numbers drawn one after the other one is at least 1/2. Missing: infinite values. -/
theorem C55_shade_partial (hE : env.Calm) (hc : env.Polite) (hB : B.Proper) (hfin : FiniteObj env) (hn : NormalOK env) (hA : ExactArith) (hT : TanLaw)
    (hI : InfLaw) (hR : RoundLaw) (ho : Often env p.depth) (hD : 0 < D) (hp : p.Usable) (m : ℕ) (hm : env.maxIters = some m) (main : Bool)
    (ncb fuel : ℕ) (hf : m < fuel) : ∃ res, ((alg opt B p).exec env main ncb fuel).1 = .ok ⟨some res, none⟩ :=
  (safe hE hB hfin hn hA hT hI hR ho hD hp).exec hc main ncb fuel (C17_max_iters (.shade p) env (hE.noFuel hc) m hm main ncb fuel hf).1

/-- The same with `max_evals`. -/
theorem C55_shade_evals_partial (hE : env.Calm) (hc : env.Polite) (hB : B.Proper) (hfin : FiniteObj env) (hn : NormalOK env) (hA : ExactArith) (hT : TanLaw)
    (hI : InfLaw) (hR : RoundLaw) (ho : Often env p.depth) (hD : 0 < D) (hp : p.Usable) (m : ℕ) (hm : env.maxEvals = some m) (main : Bool)
    (ncb fuel : ℕ) (hf : m < fuel) : ∃ res, ((alg opt B p).exec env main ncb fuel).1 = .ok ⟨some res, none⟩ :=
  (safe hE hB hfin hn hA hT hI hR ho hD hp).exec hc main ncb fuel (C17_max_evals (.shade p) (by
    have := hp.three
    simp only [Par.cost]
    split <;> omega) env (hE.noFuel hc) m hm main ncb fuel hf)

/-! Cases that meet the hypotheses. -/
namespace Ex

/-- Arithmetic without rounding; `round` rounds. -/
abbrev arith : Arith := exactArith fun f x => match f, x with
  | .round, .fin q => .fin ⌊q + 1 / 2⌋
  | _, x => x

/-- A finite objective. -/
def sphereEnv (D : ℕ) (me mi : Option ℕ) : Env (Vec D) :=
  NiaPy.Ex.env (fun _ x => .ok (match NiaPy.Ex.sumSq x with | .fin q => .fin q | _ => .fin 0)) .minimization me mi none NiaPy.Ex.draws
    fun _ _ x i => NiaPy.Ex.clip1 (x i)

omit [Arith] in
theorem laws : @ExactArith arith ∧ @TanLaw arith ∧ @InfLaw arith ∧ @RoundLaw arith := by
  let _ := arith
  refine ⟨exactArith_exact _, fun q h0 h1 => ⟨3141592653589793 / 1000000000000000 * q, by positivity, ?_⟩, fun q => rfl,
    fun q => ⌊q + 1 / 2⌋, fun a b h => Int.floor_mono (by simpa using h), fun n => ?_, fun q => rfl⟩
  · show Fl.fin _ = Fl.fin _
    norm_num
  · rw [Int.floor_eq_iff]
    constructor <;> norm_num

omit [Arith] in
theorem often (D : ℕ) (me mi : Option ℕ) : Often (sphereEnv D me mi) 8 := by
  intro k
  have key : ∀ r < 11, ∃ j, j < 8 ∧ 11 ≤ 2 * ((r + j) * 7 % 11) := by decide
  obtain ⟨j, hj, h⟩ := key (k % 11) (Nat.mod_lt _ (by norm_num))
  refine ⟨j, hj, ?_⟩
  have hlt : ((k + j) * 7 % 11 : ℕ) < 11 := Nat.mod_lt _ (by norm_num)
  have hq : Fl.fin (((k + j) * 7 % 11 : ℕ) / 11) ≤ Fl.belowOne ∧ (0 : ℚ) ≤ ((k + j) * 7 % 11 : ℕ) / 11 := by
    refine ⟨?_, by positivity⟩
    have h10 : (((k + j) * 7 % 11 : ℕ) : ℚ) ≤ 10 := by exact_mod_cast Nat.lt_succ_iff.1 hlt
    rw [Fl.belowOne, Fl.fin_le_fin]
    linarith
  show Fl.fin (1 / 2) ≤ if Fl.fin (((k + j) * 7 % 11 : ℕ) / 11) ≤ Fl.belowOne ∧ (0 : ℚ) ≤ ((k + j) * 7 % 11 : ℕ) / 11 then Fl.fin (((k + j) * 7 % 11 : ℕ) / 11) else .fin 0
  rw [if_pos hq]
  rw [Fl.fin_le_fin, le_div_iff₀ (by norm_num)]
  have h2 : (k + j) * 7 % 11 = (k % 11 + j) * 7 % 11 := by omega
  rw [h2]
  have : (11 : ℚ) ≤ 2 * ((k % 11 + j) * 7 % 11 : ℕ) := by exact_mod_cast h
  linarith

omit [Arith] in
theorem usable : (Ex.par 3 true (some (.fin (1 / 20)))).Usable :=
  ⟨by decide, by decide, ⟨2, by norm_num, rfl⟩, ⟨1 / 10, by norm_num, rfl, fun e he => by cases he; exact ⟨1 / 20, by norm_num, rfl⟩⟩⟩

omit [Arith] in
/-- iL-SHADE on a finite objective, for every number of evaluations. -/
example (m : ℕ) : ∃ res, ((@alg arith 2 .minimization (NiaPy.Ex.box 2) (Ex.par 3 true (some (.fin (1 / 20))))).exec (sphereEnv 2 (some m) none)
    true 0 (m + 1)).1 = .ok ⟨some res, none⟩ := by
  let _ := arith
  obtain ⟨h1, h2, h3, h4⟩ := laws
  have hfin : FiniteObj (sphereEnv 2 (some m) none) := fun k x r h => by
    have h : Except.ok (match NiaPy.Ex.sumSq x with | .fin q => Fl.fin q | _ => .fin 0) = Except.ok (ε := PyErr) r := h
    cases h
    split <;> exact ⟨_, rfl⟩
  refine C55_shade_evals_partial (fun k x => ⟨_, rfl, ?_⟩) (fun _ _ _ => rfl) (NiaPy.Ex.box_proper 2) hfin (fun k m s h => ?_) h1 h2 h3 h4 (often 2 _ _)
    (by norm_num) usable m rfl true 0 _ (by omega)
  · show (match NiaPy.Ex.sumSq x with | .fin q => Fl.fin q | _ => .fin 0) ≠ .nan
    split <;> simp
  · have h : Fl.fin ((k * 3 % 7 : ℕ) / 4 - 1) = .nan := h
    cases h

end Ex

end SHADE

/-! ### Aging -/

namespace DE
variable [Arith] {D N : ℕ} {env : Env (Vec D)} {B : Box D} {opt : OptType} {p : AgePar}

/-- A finite number other than zero. -/
def NzFin (v : Fl) : Prop := ∃ q : ℚ, q ≠ 0 ∧ v = .fin q

/-- All values of the objective are finite and not zero. -/
def NzObj (env : Env (Vec D)) : Prop := ∀ k x r, env.obj k x = .ok r → NzFin r

omit [Arith] in
theorem NzFin.mul {v : Fl} (h : NzFin v) (opt : OptType) : NzFin (opt.mul v) := by
  obtain ⟨q, hq, rfl⟩ := h
  cases opt
  · exact ⟨q, hq, rfl⟩
  · exact ⟨-q, neg_ne_zero.2 hq, rfl⟩

/-- What a task with such an objective returns: such a value, or `+inf` once it has stopped. -/
def Seen (v : Fl) : Prop := v = .pinf ∨ NzFin v

omit [Arith] in
theorem post_newInd (ho : NzObj env) (ext : ℕ) (x : Vec D) : Post env (newInd opt ext x) fun e => Seen e.f := by
  refine .bind (P := fun i : Indiv D => Seen i.f) (.bind (P := fun _ => True) (fun _ _ _ _ => trivial) fun y _ => .bind (P := Seen) (.eval fun v hv => ?_) fun v hv => .pure' hv) fun i hi => .pure' hi
  rcases hv with rfl | ⟨k, r, hr, rfl⟩
  · exact Or.inl rfl
  · exact Or.inr ((ho k _ r hr).mul _)

omit [Arith] in
theorem late_randInd (ho : NzObj env) (ext : ℕ) : Late env (randInd opt B ext) fun e => NzFin e.f :=
  .bind' (P := fun i : Indiv D => NzFin i.f) (.bindT fun x => .bindT fun y => .bind' (.eval fun k r hr => (ho k _ r hr).mul _) fun v hv => .pure' hv)
    fun i hi => .pure' hi

omit [Arith] in
theorem post_randInd (ho : NzObj env) (ext : ℕ) : Post env (randInd opt B ext) fun e => Seen e.f := by
  refine .bind (P := fun i : Indiv D => Seen i.f) (.bind (P := fun _ => True) (fun _ _ _ _ => trivial) fun x _ => .bind (P := fun _ => True) (fun _ _ _ _ => trivial)
    fun y _ => .bind (P := Seen) (.eval fun v hv => ?_) fun v hv => .pure' hv) fun i hi => .pure' hi
  rcases hv with rfl | ⟨k, r, hr, rfl⟩
  · exact Or.inl rfl
  · exact Or.inr ((ho k _ r hr).mul _)

theorem sum_fin (hA : SHADE.ExactArith) {l : List Fl} (hl : ∀ v ∈ l, ∃ q, v = .fin q) (a : ℚ) : ∃ b : ℚ, l.foldl (· + ·) (.fin a) = .fin b := by
  induction l generalizing a with
  | nil => exact ⟨a, rfl⟩
  | cons v l ih =>
    obtain ⟨q, rfl⟩ := hl v (by simp)
    rw [List.foldl_cons, hA.add]
    exact ih (fun v hv => hl v (by simp [hv])) _

theorem mean_fin (hA : SHADE.ExactArith) {l : List Fl} (h1 : ∃ v ∈ l, ∃ q, v = .fin q) : ∃ q, meanFinite l = .fin q := by
  unfold meanFinite
  simp only
  generalize hm : l.filter (fun v => match v with | .fin _ => true | _ => false) = m
  have hp : ∀ v ∈ m, ∃ q, v = .fin q := fun v hv => by
    rw [← hm, List.mem_filter] at hv
    cases v <;> simp at hv ⊢
  have hne : m ≠ [] := by
    obtain ⟨v, hv, q, rfl⟩ := h1
    have : Fl.fin q ∈ m := by rw [← hm, List.mem_filter]; exact ⟨hv, rfl⟩
    exact List.ne_nil_of_mem this
  rw [if_neg (by simpa using hne)]
  obtain ⟨b, h3⟩ := sum_fin hA hp 0
  have hlen : (0 : ℚ) < m.length := by exact_mod_cast List.length_pos_iff.2 hne
  refine ⟨b / m.length, ?_⟩
  rw [show (0 : Fl) = .fin 0 from rfl, h3, show Fl.ofNat m.length = .fin (m.length : ℚ) from rfl, hA.div _ _ hlen.ne']

/-- The bounds of the lifetime are numbers. -/
def AgePar.Numbers (p : AgePar) : Prop := (∃ a, p.minLife = .fin a) ∧ ∃ b, p.maxLife = .fin b

theorem lifetime_fin (hA : SHADE.ExactArith) (hI : SHADE.InfLaw) (hp : p.Numbers) {f avg w b : Fl} (hf : Seen f) (ha : ∃ q, avg = .fin q) :
    ∃ q, proportional p ⟨f, avg, w, b⟩ = .fin q := by
  obtain ⟨⟨lo, hlo⟩, hi, hhi⟩ := hp
  obtain ⟨a, rfl⟩ := ha
  have hmu : ∃ m, p.mu = .fin m := by
    unfold AgePar.mu
    rw [hlo, hhi, hA.sub]
    have : ∃ d, Fl.abs (.fin (hi - lo)) = .fin d := by
      unfold Fl.abs
      exact ⟨_, rfl⟩
    obtain ⟨d, hd⟩ := this
    rw [hd]
    exact ⟨d / 2, hA.div d 2 (by norm_num)⟩
  obtain ⟨m, hm⟩ := hmu
  unfold proportional
  rw [if_neg (by simp), hlo, hhi, hm]
  simp only
  rw [hA.mul]
  have : ∃ t, (Fl.fin (m * a) / f : Fl) = .fin t := by
    rcases hf with rfl | ⟨q, hq, rfl⟩
    · exact ⟨0, hI _⟩
    · exact ⟨_, hA.div _ _ hq⟩
  obtain ⟨t, ht⟩ := this
  rw [ht, hA.add]
  unfold pyMin
  split
  · exact ⟨_, rfl⟩
  · exact ⟨_, rfl⟩

theorem older_ok {age : AgeArgs → Fl} {a w b : Fl} {l : List (Ind D ℕ)} (h : ∀ e ∈ l, ∃ q, age ⟨e.f, a, w, b⟩ = .fin q) :
    ∃ l', older age a w b l = .ok l' := by
  induction l with
  | nil => exact ⟨[], rfl⟩
  | cons c l ih =>
    obtain ⟨q, hq⟩ := h c (by simp)
    obtain ⟨l', hl'⟩ := ih fun e he => h e (by simp [he])
    simp only [older, hq, hl', pyRound, bind, Except.bind]
    exact ⟨_, rfl⟩

theorem total_aging (hE : env.Calm) (hB : B.Proper) (hN : 0 < N) (hA : SHADE.ExactArith) (hI : SHADE.InfLaw) (hp : p.Numbers) {l : List (Ind D ℕ)}
    (hl : ∀ e ∈ l, Seen e.f) (h1 : ∃ e ∈ l, NzFin e.f) : Total env (aging opt B N (proportional p) l) (· ≠ []) := by
  obtain ⟨e, he, hef⟩ := id h1
  unfold aging
  refine .bindT (Total.argminRec (List.ne_nil_of_mem he)).ends fun b => .bindT (.ofExcept ?_) fun l' => ?_
  · have hm : ∃ q, meanFinite (l.map (·.f)) = .fin q := mean_fin hA ⟨_, List.mem_map.2 ⟨e, he, rfl⟩, hef.imp fun q h => h.2⟩
    obtain ⟨l', hl'⟩ := older_ok (age := proportional p) (a := meanFinite (l.map (·.f))) (w := maxVal (l.map (·.f))) (b := b.f) (l := l)
      fun e he => lifetime_fin hA hI hp (hl e he) hm
    exact ⟨l', hl', trivial⟩
  · refine .ite (fun _ => (Total.mapMAll (P := fun _ => True) fun _ _ => (total_randInd hE hB opt 0).ends).mono fun r hr => ?_) fun h => .pure' ?_
    · have hr := hr.2
      intro h
      rw [h] at hr
      simp at hr
      omega
    · simpa using h

theorem late_aging (ho : NzObj env) {age : AgeArgs → Fl} {l : List (Ind D ℕ)} (hl : ∀ e ∈ l, NzFin e.f) :
    Late env (aging opt B N age l) fun l' => ∀ e ∈ l', NzFin e.f := by
  unfold aging
  refine .bindT fun b => .bind' (.post (.ofExcept fun l' hl' => older_fit hl')) fun l' hl' => ?_
  split
  · exact .mapMAll fun _ => late_randInd ho 0
  · refine .pure' fun e he => ?_
    obtain ⟨e', h1, -, h2⟩ := hl' e he
    rw [h2]
    exact hl e' h1

/-- Those not drawn stay. -/
theorem total_postAging (p : AgePar) {l : List (Ind D ℕ)} (hl : l ≠ []) : Total env (postAging N p l) fun l' => l' ≠ [] ∧ ∀ e ∈ l', e ∈ l := by
  unfold postAging
  refine .ite (fun _ => ?_) fun _ => .pure' ⟨hl, fun _ h => h⟩
  unfold decrement
  refine .bindT Total.look.ends fun v => .ite (fun _ => .pure' ⟨hl, fun _ h => h⟩) fun hd => .bind' (Total.choiceFin (by omega)) fun ni hni => ?_
  generalize deltaPop N p.deltaNp (Arith.fn .cos (Fl.ofNat (v.iters + 1))) = d at ni hni hd ⊢
  obtain ⟨i, hi⟩ : ∃ i, ∀ k, ni k ≠ i := by
    by_contra h
    push Not at h
    have := Fintype.card_le_of_surjective ni h
    simp at this
    omega
  refine .bind' (Total.mapM' (P := fun i (r : Option (Ind D ℕ)) => (∀ e, r = some e → e ∈ l) ∧ ((∀ k, ni k ≠ i) → r = some (l.get i))) fun i _ =>
    .ite (fun h => .bindT Total.rand.ends fun r => .pure' ⟨?_, ?_⟩) fun _ => .pure' ⟨?_, ?_⟩) fun r hr => .pure' ⟨?_, fun e he => ?_⟩
  · intro e he
    split at he
    · cases he; exact List.get_mem _ _
    · cases he
  · intro h'
    obtain ⟨k, hk⟩ := h
    exact absurd hk (h' k)
  · intro e he; cases he; exact List.get_mem _ _
  · exact fun _ => rfl
  · obtain ⟨y, hy, h1⟩ := (List.forall₂_iff_get.1 hr).2 |> fun h => (⟨r.get ⟨i.1, by
      have := hr.length_eq
      simp at this
      omega⟩, List.get_mem _ _, by
        have := (h i.1 (by simp) (by have := hr.length_eq; simp at this; omega)).2
        simp only [List.get_eq_getElem, List.getElem_finRange] at this
        exact this (by simpa using hi)⟩ : ∃ y ∈ r, y = some (l.get i))
    refine List.ne_nil_of_mem (a := l.get i) ?_
    simp only [List.mem_filterMap, id]
    exact ⟨_, hy, h1⟩
  · simp only [List.mem_filterMap, id] at he
    obtain ⟨a, ha, rfl⟩ := he
    obtain ⟨n, hn⟩ := List.get_of_mem ha
    have := ((List.forall₂_iff_get.1 hr).2 n.1 (by have := hr.length_eq; have := n.2; omega) n.2).1 e
    exact this hn

omit [Arith] in
theorem survivors_nz {l : List (Ind D ℕ)} {new : Fin l.length → Ind D ℕ} (hl : ∀ e ∈ l, NzFin e.f) (hn : ∀ i, Seen (new i).f) :
    ∀ e ∈ survivors l new, NzFin e.f := by
  intro e he
  obtain ⟨i, rfl⟩ := List.mem_ofFn.1 he
  obtain ⟨q, hq, h⟩ := hl _ (List.get_mem l i)
  split
  · rename_i hlt
    rcases hn i with h' | h'
    · rw [h', h] at hlt
      exact absurd hlt (by simp)
    · exact h'
  · exact ⟨q, hq, h⟩

theorem safe_aging (hE : env.Calm) (hB : B.Proper) (hN : 0 < N) (ho : NzObj env) (hA : SHADE.ExactArith) (hI : SHADE.InfLaw) (hp : p.Numbers)
    {strat : Strategy D} (hs : Calls env strat) (f cr : Fl) : (algAging opt B N strat f cr p proportional).SafeLate env := by
  refine ⟨fun l : List (Ind D ℕ) => l ≠ [] ∧ ∀ e ∈ l, NzFin e.f, ?_, ?_, fun _ l xb fxb hl => ⟨?_, ?_⟩⟩
  · refine .bind' (Total.tabM fun _ => total_randInd hE hB opt 0) fun r hr => .pure' ?_
    have h : List.ofFn r ≠ [] := by rw [Ne, List.ofFn_eq_nil_iff]; omega
    refine ⟨by simpa [algAging, mk] using h, by simp [algAging, mk], fun v hv => ?_⟩
    obtain ⟨e, he, rfl⟩ := List.mem_map.1 hv
    obtain ⟨i, rfl⟩ := List.mem_ofFn.1 he
    exact hr i
  · refine .bind' (.tabM (P := fun _ (e : Ind D ℕ) => NzFin e.f) fun _ => late_randInd ho 0) fun r hr => .pure' ⟨?_, fun e he => ?_⟩
    · rw [Ne, List.ofFn_eq_nil_iff]; omega
    · obtain ⟨i, rfl⟩ := List.mem_ofFn.1 he
      exact hr i
  · have hnew : Total env (evolve opt 0 strat f cr l xb) fun new => ∀ i, Seen (new i).f :=
      .tabM fun i => .bindT (hs _ _ _ _ _) fun x => .with' (total_newInd hE opt 0 x).ends (post_newInd ho 0 x)
    refine .bind' hnew fun new hn => .bind' (P := fun r : List (Ind D ℕ) × Vec D × Fl => r.1 ≠ []) ?_ fun r hr =>
      .bind' (total_postAging p hr) fun l' hl' => .bindT (ends_best hl'.1 _ _) fun _ => .pure' trivial
    have hsv := survivors_nz hl.2 hn
    have hne := survivors_ne hl.1 new
    refine .bind' (P := fun r : List (Ind D ℕ) × Vec D × Fl => r.1 = survivors l new) (.bindT (ends_best hne _ _) fun _ => .pure' rfl) fun r hr => ?_
    obtain ⟨arr, xb1, fxb1⟩ := r
    obtain rfl : arr = survivors l new := hr
    refine .bind' (P := fun born : List (Ind D ℕ) => ∀ e ∈ born, Seen e.f) ?_ fun born hb => .bindT (ends_best (by simp [hne]) _ _) fun b =>
      .bind' (total_aging hE hB hN hA hI hp (fun e he => ?_) ?_) fun l' hl' => .pure' hl'
    · exact .bindT Total.look.ends fun v => (Total.mapMAll fun _ _ => .with' (total_randInd hE hB opt 0).ends (post_randInd ho 0)).mono fun r h => h.1
    · rcases List.mem_append.1 he with h | h
      · exact Or.inr (hsv e h)
      · exact hb e h
    · obtain ⟨e, he⟩ := List.exists_mem_of_ne_nil _ hne
      exact ⟨e, List.mem_append_left _ he, hsv e he⟩
  · have hnew : Late env (evolve opt 0 strat f cr l xb) fun new => ∀ i, Seen (new i).f :=
      .tabM fun i => .bindT fun x => .post (post_newInd ho 0 x)
    refine .bind' hnew fun new hn => .bind' (P := fun r : List (Ind D ℕ) × Vec D × Fl => r.1 ≠ [] ∧ ∀ e ∈ r.1, NzFin e.f) ?_ fun r hr =>
      .bind' (.total (total_postAging p hr.1)) fun l' hl' => .bindT fun _ => .pure' ⟨hl'.1, fun e he => hr.2 e (hl'.2 e he)⟩
    have hsv := survivors_nz hl.2 hn
    have hne := survivors_ne hl.1 new
    refine .bind' (P := fun r : List (Ind D ℕ) × Vec D × Fl => r.1 = survivors l new) (.bindT fun _ => .pure' rfl) fun r hr => ?_
    obtain ⟨arr, xb1, fxb1⟩ := r
    obtain rfl : arr = survivors l new := hr
    refine .bind' (P := fun born : List (Ind D ℕ) => ∀ e ∈ born, NzFin e.f) (.bindT fun v => .mapMAll fun _ => late_randInd ho 0) fun born hb =>
      .bindT fun b => ?_
    have hall : ∀ e ∈ survivors l new ++ born, NzFin e.f := fun e he => by
      rcases List.mem_append.1 he with h | h
      · exact hsv e h
      · exact hb e h
    obtain ⟨e, he⟩ := List.exists_mem_of_ne_nil _ hne
    refine .bind' (P := fun l' : List (Ind D ℕ) => l' ≠ [] ∧ ∀ e ∈ l', NzFin e.f) ⟨fun w l' w' hr => ?_⟩ fun l' hl' => .pure' hl'
    rcases (late_aging ho hall).out w l' w' hr with h | h
    · have h1 := Late.total (total_aging (opt := opt) hE hB hN hA hI hp (fun e he => Or.inr (hall e he)) ⟨e, List.mem_append_left _ he, hsv e he⟩)
      exact (h1.out w l' w' hr).imp_left fun h1 => ⟨h1, h⟩
    · exact Or.inr h

/-- C52, what holds (computed without rounding): with the default lifetime, aging differential evolution returns a solution if all values of the
objective are finite and none is zero. Missing: values that are zero or infinite, other functions for the lifetime. -/
theorem C52_aging_partial (hE : env.Calm) (hc : env.Polite) (hB : B.Proper) (hN : 0 < N) (ho : NzObj env) (hA : SHADE.ExactArith) (hI : SHADE.InfLaw)
    (hp : p.Numbers) {strat : Strategy D} (hq : QuietStrategy strat) (hs : Calls env strat) (f cr : Fl) (m : ℕ)
    (hm : env.maxIters = some m ∨ env.maxEvals = some m) (main : Bool) (ncb fuel : ℕ) (hf : m < fuel) :
    ∃ res, ((algAging opt B N strat f cr p proportional).exec env main ncb fuel).1 = .ok ⟨some res, none⟩ := by
  refine (safe_aging hE hB hN ho hA hI hp hs f cr).exec hc main ncb fuel ?_
  rcases hm with hm | hm
  · exact (C17_max_iters (.deAging N strat f cr p proportional hq) env (hE.noFuel hc) m hm main ncb fuel hf).1
  · exact C17_max_evals (.deAging N strat f cr p proportional hq) (by simp) env (hE.noFuel hc) m hm main ncb fuel hf

/-! Cases that meet the hypotheses. -/

/-- An objective that is finite and not zero. -/
def Ex.nzEnv (opt : OptType) (me mi : Option ℕ) : Env (Vec 2) :=
  NiaPy.Ex.env (fun _ x => .ok (match NiaPy.Ex.sumSq x with | .fin q => if q = 0 then .fin 1 else .fin q | _ => .fin 1)) opt me mi none NiaPy.Ex.draws
    fun _ _ x i => NiaPy.Ex.clip1 (x i)

omit [Arith] in
theorem Ex.nzObj (opt : OptType) (me mi : Option ℕ) : NzObj (Ex.nzEnv opt me mi) := by
  intro k x r hr
  have hr : (Except.ok (match NiaPy.Ex.sumSq x with | .fin q => if q = 0 then Fl.fin 1 else .fin q | _ => .fin 1) : Except PyErr Fl) = .ok r := hr
  injection hr with hr
  subst hr
  split
  · split
    · exact ⟨1, by norm_num, rfl⟩
    · exact ⟨_, by assumption, rfl⟩
  · exact ⟨1, by norm_num, rfl⟩

omit [Arith] in
example (m : ℕ) : ∃ res, ((@algAging SHADE.Ex.arith 2 .maximization (NiaPy.Ex.box 2) 10 (@crossRand1 SHADE.Ex.arith 2) (.fin (1 / 2)) (.fin (9 / 10))
    ⟨.fin 0, .fin 12, .fin (3 / 10), .fin (3 / 10)⟩ (@proportional SHADE.Ex.arith)).exec (Ex.nzEnv .maximization (some m) none) true 0 (m + 1)).1
      = .ok ⟨some res, none⟩ := by
  let _ := SHADE.Ex.arith
  obtain ⟨h1, -, h3, -⟩ := SHADE.Ex.laws
  refine C52_aging_partial (fun k x => ⟨_, rfl, ?_⟩) (fun _ _ _ => rfl) (NiaPy.Ex.box_proper 2) (by norm_num) (Ex.nzObj _ _ _) h1 h3 ⟨⟨0, rfl⟩, 12, rfl⟩
    (quiet_strategy _ _) (calls_strategy (by norm_num) _ _) _ _ m (Or.inr rfl) true 0 _ (by omega)
  obtain ⟨q, -, h⟩ := Ex.nzObj .maximization (some m) none k x _ rfl
  rw [h]
  simp

end DE

end NiaPy
