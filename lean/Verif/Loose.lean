import Verif.Post
import Verif.PopTools
import Mathlib.Algebra.BigOperators.Fin

/-!
# Algorithms that may lose the best solution they evaluate

Some algorithms evaluate solutions they do not keep. What they return is still at least as good as every population they
have shown.
-/

namespace NiaPy
variable {X : Type} {C : Ctx X} {g : Ghost X}

theorem NoTracking.fit {b : Fl} {x : X} {v : Fl} (h : NoTracking C) (hF : C.F x v) : C.Fit b x v := ⟨hF, fun hn => (h hn.trk).elim⟩

theorem NoTracking.cov {S : Fl → Prop} (h : NoTracking C) : Cov C S g := fun hn => (h hn.trk).elim

theorem NoTracking.eq {P : Prop} (h : NoTracking C) : C.NN → P := fun hn => (h hn.trk).elim

/-- Population and fitness at the head of every round belong together (in the internal sign), and so does the incumbent. -/
theorem VerifiedIf.trace_aligned {H : Ctx X → Prop} {A : Alg X} {Good : X → Prop} {s t : Bool} {K : Cost} (hA : VerifiedIf H A Good s t K)
    (env : Env X) (hH : MetBy H env False) {ncb : ℕ} {hist : List (A.σ × X × Fl)} {w : World X} (h : A.Trace env ncb hist w) :
    ∀ r ∈ hist, List.Forall₂ (FitOK env.opt w.calls) (A.pop r.1) (A.fit r.1) ∧ FitOK env.opt w.calls r.2.1 r.2.2 := by
  obtain ⟨Inv, hok⟩ := hA
  have hC := hok (w.ctx env False) (hH _ (fun _ _ hf => .of trivial (h.calls.possible hf)) id rfl (fun _ _ h => h) fun hs => absurd trivial hs) (fun _ _ => trivial) (fun _ => trivial) (fun _ => trivial)
  have := Alg.Trace.inv (A := A) (C := w.ctx env False) (.of (fun _ _ _ => trivial) fun _ _ _ => by first | trivial | assumption) trivial
    (fun hist b => (∀ r ∈ hist, List.Forall₂ (FitOK env.opt w.calls) (A.pop r.1) (A.fit r.1) ∧ FitOK env.opt w.calls r.2.1 r.2.2) ∧
      ∀ r ∈ hist.head?, Inv (w.ctx env False) r.1 b) ?_ ?_ h (fun _ _ hf => hf)
  · exact this.1
  · intro g hg
    refine Prog.wp_mono (fun s g' hs r hr => ?_) (hC.init g hg)
    have hal := hs.2.1.imp fun _ _ h => h.1
    refine ⟨fun r' hr' => ?_, fun r' hr' => by cases hr'; exact hs.1⟩
    cases List.mem_singleton.1 hr'
    exact ⟨hal, getBest_aligned (F := FitOK env.opt w.calls) hal (fun x hx => by cases hx) hr⟩
  · intro r hist g hJ
    obtain ⟨h1, h2⟩ := hJ
    refine Prog.wp_mono (fun r' g' hr => ?_) (hC.iter r.1 r.2.1 r.2.2 g (h2 r rfl) (h1 r (by simp)).2 fun hn => hn.trk.elim)
    refine ⟨fun t ht => ?_, fun t ht => by cases ht; exact hr.1⟩
    rcases List.mem_cons.1 ht with rfl | ht
    · exact ⟨(hC.aligned trivial _ _ hr.1).imp fun _ _ h => h.1, hr.2.1⟩
    · exact h1 t ht

/-- After every iteration the incumbent is at least as good as before and as the population shown with it. -/
def Dominates (A : Alg X) : Prop := ∀ env s xb fxb, Post env (A.iter s xb fxb) fun r =>
  (r.2.2 = fxb ∨ r.2.2 ≤ fxb) ∧ (fxb ≠ .nan → (∀ f ∈ A.fit r.1, f ≠ .nan) → ∀ f ∈ A.fit r.1, r.2.2 ≤ f)

/-- The incumbents of a trace never get worse, whatever the objective returns. -/
theorem Dominates.monotone {A : Alg X} (hA : Dominates A) {env : Env X} {ncb : ℕ} {hist : List (A.σ × X × Fl)} {w : World X}
    (h : A.Trace env ncb hist w) : hist.Pairwise fun r' r => r'.2.2 = r.2.2 ∨ r'.2.2 ≤ r.2.2 := by
  have hch := (h.post (P := fun _ => True) (R := fun r' r => r'.2.2 = r.2.2 ∨ r'.2.2 ≤ r.2.2) (fun _ _ _ _ => trivial)
    fun r _ => (hA env r.1 r.2.1 r.2.2).mono fun _ h => ⟨trivial, h.1⟩).2
  letI : IsTrans (A.σ × X × Fl) (fun r' r => r'.2.2 = r.2.2 ∨ r'.2.2 ≤ r.2.2) := ⟨fun a b c h1 h2 => by
    rcases h1 with h1 | h1
    · rw [h1]; exact h2
    · rcases h2 with h2 | h2
      · rw [← h2]; exact Or.inr h1
      · exact Or.inr (Fl.le_trans h1 h2)⟩
  exact List.isChain_iff_pairwise.1 hch

/-- The incumbent at the head of every round is at least as good as every individual of every population so far. -/
theorem Dominates.shown {H : Ctx X → Prop} {A : Alg X} {Good : X → Prop} {s t : Bool} {K : Cost} (hA : Dominates A)
    (hV : VerifiedIf H A Good s t K) (env : Env X) (hH : MetBy H env False) (hnn : NoNaN env) {ncb : ℕ} {r : A.σ × X × Fl}
    {hist : List (A.σ × X × Fl)} {w : World X} (h : A.Trace env ncb (r :: hist) w) :
    ∀ t ∈ r :: hist, ∀ f ∈ A.fit t.1, r.2.2 ≤ f := by
  have hal := hV.trace_aligned env hH h
  have hne : ∀ x v, FitOK env.opt w.calls x v → v ≠ .nan := fun x v hf => by
    rcases h.calls.possible hf with rfl | ⟨k, u, hu, rfl⟩
    · simp
    · have := hnn k x u hu
      cases env.opt <;> cases u <;> simp_all [OptType.mul]
  have hall : ∀ t ∈ r :: hist, (∀ f ∈ A.fit t.1, f ≠ .nan) ∧ t.2.2 ≠ .nan := fun t ht =>
    ⟨Forall₂.right hne (hal t ht).1, hne _ _ (hal t ht).2⟩
  have hdom : ∀ t ∈ r :: hist, ∀ f ∈ A.fit t.1, t.2.2 ≤ f := by
    clear hal
    have key : ∀ hist w, A.Trace env ncb hist w → (∀ t ∈ hist, (∀ f ∈ A.fit t.1, f ≠ .nan) ∧ t.2.2 ≠ .nan) →
        ∀ t ∈ hist, ∀ f ∈ A.fit t.1, t.2.2 ≤ f := by
      intro hist w h
      induction h with
      | start h =>
        intro hall t ht
        cases List.mem_singleton.1 ht
        obtain ⟨w1, h1, h2, h3, h4, h5⟩ := start_init h
        exact (getBest_le (hall _ (by simp)).1 (by simp) h4).1
      | round hprev hs h ih =>
        intro hall t ht
        rcases List.mem_cons.1 ht with rfl | ht
        · obtain ⟨w1, w2, h1, -⟩ := round_iter h
          exact (hA env _ _ _ _ _ _ h1).2 (hall _ (by simp)).2 (hall _ (by simp)).1
        · exact ih (fun t ht => hall t (List.mem_cons_of_mem _ ht)) t ht
    exact key _ _ h hall
  intro t ht f hf
  rcases List.mem_cons.1 ht with rfl | ht'
  · exact hdom _ ht f hf
  · rcases (List.pairwise_cons.1 (hA.monotone h)).1 t ht' with he | he
    · rw [he]; exact hdom t ht f hf
    · exact Fl.le_trans he (hdom t ht f hf)

/-- Rule for `tabM` like `wp_tabM_cov`, with bounds on the number of evaluations of every entry. -/
theorem wp_tabM_covB {α : Type} {n : ℕ} {f : Fin n → Prog X α} (pt : Fin n → α → X) (val : Fin n → α → Fl) (P : Fin n → α → Prop) (lo hi : ℕ)
    {S : Fl → Prop} (h0 : Cov C S g)
    (hstep : ∀ (i : Fin n) g' S, Below g'.b g.b → Cov C S g' →
      (f i).wp C (fun a g'' => Cov C (fun u => S u ∨ u = val i a) g'' ∧ C.Fit g''.b (pt i a) (val i a) ∧ P i a ∧
        g'.c + lo ≤ g''.c ∧ g''.c ≤ g'.c + hi) g') :
    (tabM n f).wp C (fun r g' => (Cov C (fun u => S u ∨ ∃ i, u = val i (r i)) g' ∧
      (∀ i, C.Fit g'.b (pt i (r i)) (val i (r i))) ∧ (∀ i, P i (r i)) ∧ g.c + n * lo ≤ g'.c ∧ g'.c ≤ g.c + n * hi) ∧ Below g'.b g.b) g := by
  refine Prog.wp_below ?_
  induction n generalizing g S with
  | zero => exact ⟨h0.mono fun u hu => Or.inl hu, fun i => i.elim0, fun i => i.elim0, by simp, by simp⟩
  | succ n ih =>
    rw [tabM, Prog.wp_bind]
    refine Prog.wp_mono (fun a g' ha => ?_) (Prog.wp_below (hstep 0 g S (.refl _) h0))
    obtain ⟨ha, hb0⟩ := ha
    rw [Prog.wp_bind]
    refine Prog.wp_mono (fun r g'' hr => ?_) (Prog.wp_below (ih (pt := fun i => pt i.succ) (val := fun i => val i.succ)
      (P := fun i => P i.succ) ha.1 fun i g S hb h => hstep i.succ g S (hb.trans hb0) h))
    obtain ⟨hr, hb⟩ := hr
    refine ⟨hr.1.mono ?_, ?_, ?_, ?_, ?_⟩
    · rintro u ((hu | hu) | ⟨i, hi⟩)
      · exact Or.inl hu
      · exact Or.inr ⟨0, hu⟩
      · exact Or.inr ⟨i.succ, hi⟩
    · intro i
      refine Fin.cases ?_ (fun j => ?_) i
      · exact ha.2.1.mono hb
      · exact hr.2.1 j
    · intro i
      refine Fin.cases ?_ (fun j => ?_) i
      · exact ha.2.2.1
      · exact hr.2.2.1 j
    · have h1 := hr.2.2.2.1; have h2 := ha.2.2.2.1; rw [Nat.add_mul]; omega
    · have h1 := hr.2.2.2.2; have h2 := ha.2.2.2.2; rw [Nat.add_mul]; omega

/-- Rule for `forFin` with an exact number of evaluations in every round. -/
theorem wp_forFin_sum {σ : Type} {n : ℕ} {f : Fin n → σ → Prog X σ} {s : σ} (J : σ → Prop) (w : Fin n → ℕ) (h0 : J s)
    (hstep : ∀ (i : Fin n) s g, J s → (f i s).wp C (fun s' g' => J s' ∧ g'.c = g.c + w i) g) :
    (forFin n f s).wp C (fun s' g' => J s' ∧ g'.c = g.c + ∑ i, w i) g := by
  induction n generalizing s g with
  | zero => exact ⟨h0, by simp⟩
  | succ n ih =>
    rw [forFin, Prog.wp_bind]
    refine Prog.wp_mono (fun s' g' hs => ?_) (hstep 0 s g h0)
    refine Prog.wp_mono (fun s'' g'' h => ⟨h.1, ?_⟩) (ih (w := fun i => w i.succ) hs.1 fun i s g hJ => hstep i.succ s g hJ)
    rw [h.2, hs.2, Fin.sum_univ_succ, Nat.add_assoc]

theorem argminGo_le (pre vs : List Fl) (cur : Fl) (ci : ℕ) (hc : pre[ci]? = some cur) (h : cur ≠ .nan → ∀ v ∈ pre, cur ≤ v) (m : Fl)
    (hm : (pre ++ vs)[argminGo cur ci pre.length vs]? = some m) (hn : m ≠ .nan) : ∀ v ∈ pre ++ vs, m ≤ v := by
  have hlt : ci < pre.length := (List.getElem?_eq_some_iff.1 hc).1
  induction vs generalizing pre cur ci with
  | nil =>
    simp only [argminGo, List.append_nil] at hm ⊢
    rw [hc] at hm; cases hm
    exact h hn
  | cons v vs ih =>
    rw [argminGo] at hm
    split at hm
    · rename_i hcn
      rw [List.getElem?_append_left hlt, hc] at hm; cases hm
      exact absurd hcn hn
    · rename_i hcn
      have hpre : (pre ++ [v]).length = pre.length + 1 := by simp
      split at hm
      · rename_i hv
        have := ih (pre ++ [v]) v pre.length (by simp) (fun hvn u hu => ?_) (by rw [hpre]; simpa using hm) (by simp)
        · simpa using this
        · rcases List.mem_append.1 hu with hu | hu
          · exact Fl.le_trans (Fl.le_of_lt (hv.resolve_right hvn)) (h hcn u hu)
          · cases List.mem_singleton.1 hu; exact Fl.le_refl hvn
      · rename_i hv
        rw [not_or] at hv
        have := ih (pre ++ [v]) cur ci (by rw [List.getElem?_append_left hlt, hc]) (fun hvn u hu => ?_) (by rw [hpre]; simpa using hm)
          (by simp; omega)
        · simpa using this
        · rcases List.mem_append.1 hu with hu | hu
          · exact h hcn u hu
          · cases List.mem_singleton.1 hu; exact Fl.le_of_not_lt hv.2 hcn hv.1

/-- `np.argmin` gives NaN if there is one. -/
theorem argmin_le {l : List Fl} {k : ℕ} {m : Fl} (h : argmin l = .ok k) (hm : l[k]? = some m) (hn : m ≠ .nan) : ∀ v ∈ l, m ≤ v := by
  cases l with
  | nil => cases h
  | cons v vs =>
    cases h
    refine argminGo_le [v] vs v 0 rfl (fun hv u hu => ?_) m hm hn
    cases List.mem_singleton.1 hu; exact Fl.le_refl hv

/-- The value at the index `np.argmin` gives, if it is not NaN, is the smallest one. -/
theorem wp_argminIdx_le {n : ℕ} {fit : Fin n → Fl} {Q : Fin n → Ghost X → Prop}
    (h : ∀ i, (fit i ≠ .nan → ∀ j, fit i ≤ fit j) → Q i g) : (argminIdx fit : Prog X (Fin n)).wp C Q g := by
  unfold argminIdx argminRec
  rw [Prog.wp_ofExcept]
  cases hl : argmin ((List.finRange n).map fit) with
  | error e =>
    refine ⟨nofun, fun h => ?_⟩
    cases h
    cases hn : List.finRange n <;> simp [argmin, hn] at hl
  | ok i =>
    simp only
    cases hi : (List.finRange n)[i]? with
    | none => exact ⟨nofun, nofun⟩
    | some a =>
      refine ⟨fun b hb => ?_, nofun⟩
      cases hb
      refine h a fun hn j => argmin_le hl (by rw [List.getElem?_map, hi]; rfl) hn _ (List.mem_map_of_mem (List.mem_finRange j))

theorem Post.mapMAll {β α : Type} {env : Env X} {l : List β} {f : β → Prog X α} {P : α → Prop} (h : ∀ b ∈ l, Post env (f b) P) :
    Post env (mapM' l f) fun r => ∀ x ∈ r, P x := by
  induction l with
  | nil => exact .pure' nofun
  | cons b bs ih =>
    refine .bind (h b (by simp)) fun a ha => .bind (ih fun b hb => h b (by simp [hb])) fun r hr => .pure' fun x hx => ?_
    rcases List.mem_cons.1 hx with rfl | hx
    · exact ha
    · exact hr x hx

theorem Post.evalRecs {env : Env X} {l : List X} : Post env (evalRecs l) fun r => ∀ e ∈ r, e.1 ∈ l := by
  unfold NiaPy.evalRecs
  split
  · exact fun _ _ _ h => by cases h
  · exact .mapMAll fun x hx => .bind' .any fun v _ => .pure' hx

/-- A program that evaluates at most `n` solutions, whatever it returns. -/
structure Few {α : Type} (C : Ctx X) (n : ℕ) (p : Prog X α) : Prop where
  out : ∀ g, p.wp C (fun _ g' => g.c ≤ g'.c ∧ g'.c ≤ g.c + n) g

theorem Few.ite {α : Type} {n : ℕ} {c : Prop} [Decidable c] {p q : Prog X α} (hp : Few C n p) (hq : Few C n q) : Few C n (if c then p else q) := by
  split
  · exact hp
  · exact hq

theorem Few.of {α : Type} {n : ℕ} {p : Prog X α} (h : Quiet C p) : Few C n p := ⟨fun _ => h.wp fun _ _ => ⟨le_rfl, by omega⟩⟩

theorem Few.bindQ {α β : Type} {n : ℕ} {p : Prog X α} {f : α → Prog X β} {P : α → Prop} (hp : Yields C p P) (hf : ∀ a, P a → Few C n (f a)) :
    Few C n (p >>= f) := ⟨fun g => by
  rw [Prog.wp_bind']
  exact hp.wp fun a ha => (hf a ha).out g⟩

/-- `best_index = argmin(fit); if fit[best_index] < fxb: xb, fxb = pop[best_index], fit[best_index]` -/
def takeMin {n : ℕ} (pop : Fin n → X) (fit : Fin n → Fl) (xb : X) (fxb : Fl) : Prog X (X × Fl) := do
  let i ← argminIdx fit
  return betterLt (pop i) (fit i) xb fxb

theorem wp_takeMin {n : ℕ} {pop : Fin n → X} {fit : Fin n → Fl} {xb : X} {fxb : Fl} {Q : X × Fl → Ghost X → Prop}
    (hf : ∀ i, C.F (pop i) (fit i)) (hx : C.F xb fxb) (hQ : ∀ r : X × Fl, C.F r.1 r.2 → Q r g) : (takeMin pop fit xb fxb).wp C Q g := by
  simp only [takeMin, Prog.wp_bind']
  refine wp_argminIdx fun i _ => hQ _ ?_
  unfold betterLt
  split
  · exact hf i
  · exact hx

theorem Post.takeMin {env : Env X} {n : ℕ} {pop : Fin n → X} {fit : Fin n → Fl} {xb : X} {fxb : Fl} :
    Post env (takeMin pop fit xb fxb) fun r => (r.2 = fxb ∨ r.2 ≤ fxb) ∧ (fxb ≠ .nan → (∀ i, fit i ≠ .nan) → ∀ i, r.2 ≤ fit i) := by
  refine .bind' (P := fun i => (∀ j, fit j ≠ .nan) → ∀ j, fit i ≤ fit j) (.yields ⟨fun g => wp_argminIdx fun i h => ⟨h, rfl⟩⟩) fun i hi => .pure' ?_
  unfold betterLt
  split
  · rename_i hlt
    exact ⟨Or.inr (Fl.le_of_lt hlt), fun _ hn => hi hn⟩
  · rename_i hlt
    exact ⟨Or.inl rfl, fun hx hn j => Fl.le_trans (Fl.le_of_not_lt (hn i) hx hlt) (hi hn j)⟩

theorem Post.getBest {env : Env X} {n : ℕ} {pop : Fin n → X} {fit : Fin n → Fl} {xb : X} {fxb : Fl} :
    Post env (Prog.getBest (List.ofFn pop) (List.ofFn fit) xb fxb) fun r => (r.2 = fxb ∨ r.2 ≤ fxb) ∧
      (fxb ≠ .nan → (∀ i, fit i ≠ .nan) → ∀ i, r.2 ≤ fit i) := by
  refine .ofExcept fun r hr => ⟨?_, fun hx hn i => (getBest_le (fun v hv => ?_) hx hr).1 _ (mem_ofFn_iff.2 ⟨i, rfl⟩)⟩
  · unfold NiaPy.getBest at hr
    split at hr
    · cases hr
    · split at hr
      · cases hr
      · split at hr
        · rename_i hle
          split at hr
          · cases hr
          · cases hr; exact Or.inr hle
        · cases hr; exact Or.inl rfl
  · obtain ⟨j, rfl⟩ := mem_ofFn_iff.1 hv
    exact hn j

end NiaPy
