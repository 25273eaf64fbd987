import Verif.Wp
import Verif.Arith

/-!
# Loops, vectorised draws and coverage

Control structures used by the models of the algorithms, with their proof rules.
-/

namespace NiaPy
variable {X α β σ : Type} {C : Ctx X} {g : Ghost X}

/-- `for i in range(n): s = f(i, s)` -/
def forFin : (n : ℕ) → (Fin n → σ → Prog X σ) → σ → Prog X σ
  | 0, _, s => .pure s
  | n + 1, f, s => (f 0 s).bind fun s => forFin n (fun i => f i.succ) s

/-- `[f(i) for i in range(n)]`, as a function on indices. -/
def tabM : (n : ℕ) → (Fin n → Prog X α) → Prog X (Fin n → α)
  | 0, _ => .pure fun i => i.elim0
  | n + 1, f => (f 0).bind fun a => (tabM n fun i => f i.succ).bind fun r => .pure (Fin.cons a r)

/-- `for a in l: s = f(a, s)` -/
def forList : List β → (β → σ → Prog X σ) → σ → Prog X σ
  | [], _, s => .pure s
  | b :: bs, f, s => (f b s).bind fun s => forList bs f s

/-- `[f(a) for a in l]` -/
def mapM' : List β → (β → Prog X α) → Prog X (List α)
  | [], _ => .pure []
  | b :: bs, f => (f b).bind fun a => (mapM' bs f).bind fun r => .pure (a :: r)

/-- A random index below `n` (`self.integers(n)`, `rng.integers(n)`); raises `ValueError` for `n = 0`. -/
def intFin (n : ℕ) : Prog X (Fin n) :=
  (Prog.int n).bind fun k => if h : k < n then .pure ⟨k, h⟩ else .throw .valueError

/-- Rule for `forFin` with an invariant that depends on the index. -/
theorem wp_forFin {n : ℕ} {f : Fin n → σ → Prog X σ} {s : σ} (J : ℕ → σ → Ghost X → Prop) (h0 : J 0 s g)
    (hstep : ∀ (i : Fin n) s g, J i s g → (f i s).wp C (J (i + 1)) g) : (forFin n f s).wp C (J n) g := by
  induction n generalizing s g J with
  | zero => exact h0
  | succ n ih =>
    rw [forFin, Prog.wp_bind]
    refine Prog.wp_mono (fun s' g' hs' => ?_) (hstep 0 s g h0)
    refine ih (J := fun i => J (i + 1)) hs' ?_
    intro i s g h
    exact hstep i.succ s g (by simpa using h)

/-- Rule for `forFin` with a fixed invariant. -/
theorem wp_forFin' {n : ℕ} {f : Fin n → σ → Prog X σ} {s : σ} (J : σ → Ghost X → Prop) (h0 : J s g)
    (hstep : ∀ (i : Fin n) s g, J s g → (f i s).wp C J g) : (forFin n f s).wp C J g :=
  wp_forFin (fun _ => J) h0 hstep

/-- Rule for `tabM`: an invariant on the ghost state and a fact about every entry. -/
theorem wp_tabM {n : ℕ} {f : Fin n → Prog X α} (J : ℕ → Ghost X → Prop) (P : Fin n → α → Prop) (h0 : J 0 g)
    (hstep : ∀ (i : Fin n) g, J i g → (f i).wp C (fun a g' => J (i + 1) g' ∧ P i a) g) :
    (tabM n f).wp C (fun r g' => J n g' ∧ ∀ i, P i (r i)) g := by
  induction n generalizing g J with
  | zero => exact ⟨h0, fun i => i.elim0⟩
  | succ n ih =>
    rw [tabM, Prog.wp_bind]
    refine Prog.wp_mono (fun a g' ha => ?_) (hstep 0 g h0)
    rw [Prog.wp_bind]
    refine Prog.wp_mono (fun r g'' hr => ?_) (ih (J := fun i => J (i + 1)) (P := fun i => P i.succ) ha.1 ?_)
    · refine ⟨hr.1, fun i => ?_⟩
      refine Fin.cases ?_ (fun j => ?_) i
      · exact ha.2
      · exact hr.2 j
    · intro i g h
      exact hstep i.succ g (by simpa using h)

/-- Rule for `tabM` when the entries do not evaluate anything. -/
theorem wp_tabM_pure {n : ℕ} {f : Fin n → Prog X α} {Q : (Fin n → α) → Ghost X → Prop} (P : Fin n → α → Prop)
    (hstep : ∀ (i : Fin n), (f i).wp C (fun a g' => g' = g ∧ P i a) g)
    (hQ : ∀ r, (∀ i, P i (r i)) → Q r g) : (tabM n f).wp C Q g := by
  refine Prog.wp_mono (fun r g' h => ?_) (wp_tabM (fun _ g' => g' = g) P rfl fun i g' h => ?_)
  · obtain ⟨rfl, h⟩ := h; exact hQ r h
  · subst h; exact hstep i

/-- Rule for `forList`. -/
theorem wp_forList {l : List β} {f : β → σ → Prog X σ} {s : σ} (J : σ → Ghost X → Prop) (h0 : J s g)
    (hstep : ∀ b ∈ l, ∀ s g, J s g → (f b s).wp C J g) : (forList l f s).wp C J g := by
  induction l generalizing s g with
  | nil => exact h0
  | cons b bs ih =>
    rw [forList, Prog.wp_bind]
    exact Prog.wp_mono (fun s' g' hs' => ih hs' fun b hb => hstep b (by simp [hb])) (hstep b (by simp) s g h0)

/-- Rule for `forList` with an invariant that depends on the number of rounds done. -/
theorem wp_forList_idx {l : List β} {f : β → σ → Prog X σ} {s : σ} (J : ℕ → σ → Ghost X → Prop) (h0 : J 0 s g)
    (hstep : ∀ b ∈ l, ∀ k s g, J k s g → (f b s).wp C (J (k + 1)) g) : (forList l f s).wp C (J l.length) g := by
  induction l generalizing s g J with
  | nil => exact h0
  | cons b bs ih =>
    rw [forList, Prog.wp_bind]
    refine Prog.wp_mono (fun s' g' hs' => ?_) (hstep b (by simp) 0 s g h0)
    exact ih (fun k => J (k + 1)) hs' fun b hb k s g h => hstep b (by simp [hb]) (k + 1) s g h

/-- Rule for `mapM'`. -/
theorem wp_mapM' {l : List β} {f : β → Prog X α} (J : ℕ → Ghost X → Prop) (P : β → α → Prop) (h0 : J 0 g)
    (hstep : ∀ b ∈ l, ∀ k g, J k g → (f b).wp C (fun a g' => J (k + 1) g' ∧ P b a) g) :
    (mapM' l f).wp C (fun r g' => J l.length g' ∧ List.Forall₂ P l r) g := by
  induction l generalizing g J with
  | nil => exact ⟨h0, List.Forall₂.nil⟩
  | cons b bs ih =>
    rw [mapM', Prog.wp_bind]
    refine Prog.wp_mono (fun a g' ha => ?_) (hstep b (by simp) 0 g h0)
    rw [Prog.wp_bind]
    refine Prog.wp_mono (fun r g'' hr => ?_) (ih (J := fun k => J (k + 1)) ha.1 ?_)
    · exact ⟨hr.1, List.Forall₂.cons ha.2 hr.2⟩
    · intro b hb k g h; exact hstep b (by simp [hb]) (k + 1) g h

@[simp] theorem wp_intFin (n : ℕ) (Q : Fin n → Ghost X → Prop) :
    (intFin n : Prog X (Fin n)).wp C Q g ↔ ∀ i, Q i g := by
  rw [intFin, Prog.wp_bind, Prog.wp_int]
  constructor
  · intro h i
    have := h i i.2
    simpa using this
  · intro h k hk
    simpa [hk] using h ⟨k, hk⟩

@[simp] theorem wp_ite {c : Prop} [Decidable c] (p q : Prog X α) (Q : α → Ghost X → Prop) :
    (if c then p else q).wp C Q g ↔ (c → p.wp C Q g) ∧ (¬ c → q.wp C Q g) := by
  split <;> simp_all

/-- A program that evaluates nothing and whose result is unconstrained. -/
def Silent (C : Ctx X) (p : Prog X α) : Prop := ∀ g, p.wp C (fun _ g' => g' = g) g

theorem Silent.wp {p : Prog X α} (h : Silent C p) {Q : α → Ghost X → Prop} (hQ : ∀ a, Q a g) : p.wp C Q g :=
  Prog.wp_mono (fun a g' hg => by subst hg; exact hQ a) (h g)

/-- A vector of independent draws in `[0, 1)` (`self.random(D)`). -/
def randVec (D : ℕ) : Prog X (Vec D) := tabM D fun _ => Prog.rand
/-- A vector of normal draws. -/
def normVec (D : ℕ) (loc scale : Fl) : Prog X (Vec D) := tabM D fun _ => Prog.norm loc scale
/-- `rng.uniform(lower, upper)` for vectors. -/
def unifVec {D : ℕ} (lo hi : Vec D) : Prog X (Vec D) := tabM D fun i => Prog.unif (lo i) (hi i)

theorem silent_randVec (D : ℕ) : Silent C (randVec D : Prog X (Vec D)) := fun g =>
  wp_tabM_pure (fun _ _ => True) (fun i => by simp) (fun _ _ => rfl)
theorem silent_normVec (D : ℕ) (a b : Fl) : Silent C (normVec D a b : Prog X (Vec D)) := fun g =>
  wp_tabM_pure (fun _ _ => True) (fun i => by simp) (fun _ _ => rfl)


theorem wp_randVec_of {D : ℕ} {Q : Vec D → Ghost X → Prop} (h : ∀ r : Vec D, (∀ i, Fl.fin 0 ≤ r i ∧ r i ≤ Fl.belowOne) → Q r g) :
    (randVec D : Prog X (Vec D)).wp C Q g :=
  wp_tabM_pure (fun _ r => Fl.fin 0 ≤ r ∧ r ≤ Fl.belowOne) (fun i => by simp; exact fun _ h1 h2 => ⟨h1, h2⟩) h

theorem wp_unifVec_of {D : ℕ} {lo hi : Vec D} (hle : ∀ i, lo i ≤ hi i) {Q : Vec D → Ghost X → Prop}
    (h : ∀ r : Vec D, (∀ i, lo i ≤ r i ∧ r i ≤ hi i) → Q r g) : (unifVec lo hi : Prog X (Vec D)).wp C Q g :=
  wp_tabM_pure (fun i r => lo i ≤ r ∧ r ≤ hi i) (fun i => by simp; exact fun r hr => hr (hle i)) h

/-! ### Coverage: some kept value is at least as good as everything evaluated -/

/-- If no fitness value is NaN: nothing better than `+inf` was evaluated, or a value of `S` is at most the best
internal value. -/
def Cov (C : Ctx X) (S : Fl → Prop) (g : Ghost X) : Prop := C.NN → g.b = .pinf ∨ ∃ u, S u ∧ u ≤ g.b

/-- Replace the kept values by others that are at least as good. -/
theorem Cov.weaken {S S' : Fl → Prop} (h : Cov C S g) (hs : C.NN → ∀ u, S u → u ≠ .nan → ∃ u', S' u' ∧ u' ≤ u) :
    Cov C S' g := fun hn => by
  rcases h hn with h0 | ⟨u, hu, hle⟩
  · exact Or.inl h0
  · obtain ⟨u', hu', hle'⟩ := hs hn u hu (Fl.ne_nan_of_le_left hle)
    exact Or.inr ⟨u', hu', Fl.le_trans hle' hle⟩

theorem Cov.mono {S S' : Fl → Prop} (h : Cov C S g) (hs : ∀ u, S u → S' u) : Cov C S' g :=
  h.weaken fun _ u hu hn => ⟨u, hs u hu, Fl.le_refl hn⟩

/-- An evaluation adds its value to the kept values. -/
theorem Cov.eval {S : Fl → Prop} (h : Cov C S g) (v : Fl) : Cov C (fun u => u = v ∨ S u) (g.eval v) := fun hn => by
  simp only [Ghost.eval]
  by_cases hlt : v < g.b
  · rw [if_pos hlt]; exact Or.inr ⟨v, Or.inl rfl, Fl.le_refl (Fl.ne_nan_of_lt_left hlt)⟩
  · rw [if_neg hlt]
    rcases h hn with h0 | ⟨u, hu, hle⟩
    · exact Or.inl h0
    · exact Or.inr ⟨u, Or.inr hu, hle⟩

end NiaPy
