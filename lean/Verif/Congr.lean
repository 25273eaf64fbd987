import Verif.Post
import Verif.Runs

/-!
# Programs that cannot be told apart in a given environment
-/

namespace NiaPy
variable {X α β : Type} {env : Env X}

/-- The two programs behave alike from every world: same result, same effects. -/
def Same (env : Env X) (p q : Prog X α) : Prop := ∀ w, p.run env w = q.run env w

namespace Same

theorem rfl' {p : Prog X α} : Same env p p := fun _ => rfl

theorem of_eq {p q : Prog X α} (h : p = q) : Same env p q := h ▸ rfl'

theorem bind {p : Prog X α} {f f' : α → Prog X β} {P : α → Prop} (hp : Post env p P) (hf : ∀ a, P a → Same env (f a) (f' a)) :
    Same env (p.bind f) (p.bind f') := by
  intro w
  rw [Prog.run_bind, Prog.run_bind]
  cases hr : p.run env w with
  | mk r w1 =>
    cases r with
    | error e => rfl
    | ok a => exact hf a (hp w w1 a hr) w1

theorem bind' {p : Prog X α} {f f' : α → Prog X β} {P : α → Prop} (hp : Post env p P) (hf : ∀ a, P a → Same env (f a) (f' a)) :
    Same env (p >>= f) (p >>= f') := bind hp hf

theorem bindl {p q : Prog X α} {f : α → Prog X β} (h : Same env p q) : Same env (p.bind f) (q.bind f) := by
  intro w
  rw [Prog.run_bind, Prog.run_bind, h w]

theorem trans {p q r : Prog X α} (h : Same env p q) (h' : Same env q r) : Same env p r := fun w => (h w).trans (h' w)

end Same

/-- Two algorithms that differ in `run_iteration` only, but not from any state that can occur, cannot be told apart: same
result, same evaluations, same callback events. -/
theorem Alg.exec_congr {A : Alg X} {iter' : A.σ → X → Fl → Prog X (A.σ × X × Fl)} {Inv : A.σ → Prop} (h0 : Post env A.init Inv)
    (hI : ∀ s xb fxb, Inv s → Post env (A.iter s xb fxb) fun r => Inv r.1)
    (hs : ∀ s xb fxb, Inv s → Same env (A.iter s xb fxb) (iter' s xb fxb)) (main : Bool) (ncb fuel : ℕ) :
    ({ A with iter := iter' } : Alg X).exec env main ncb fuel = A.exec env main ncb fuel := by
  have hloop : ∀ fuel s xb fxb, Inv s →
      Same env (A.loop ncb fuel s xb fxb) (({ A with iter := iter' } : Alg X).loop ncb fuel s xb fxb) := by
    intro fuel
    induction fuel with
    | zero => intro s xb fxb _; exact Same.rfl'
    | succ n ih =>
      intro s xb fxb hs'
      unfold Alg.loop
      refine .bind' .any fun v _ => ?_
      split
      · exact Same.rfl'
      · refine .bind' .any fun _ _ => ?_
        refine Same.trans (Same.bindl (hs s xb fxb hs')) ?_
        have hI' : Post env (iter' s xb fxb) fun r => Inv r.1 := fun w w' a ha => hI s xb fxb hs' w w' a ((hs s xb fxb hs' w).trans ha)
        refine .bind hI' fun r hr => .bind' .any fun _ _ => .bind' .any fun _ _ => ih _ _ _ hr
  have hbody : Same env (A.body ncb fuel) (({ A with iter := iter' } : Alg X).body ncb fuel) := by
    unfold Alg.body
    refine .bind' .any fun _ _ => .bind' h0 fun s hs' => .bind' .any fun b _ => ?_
    exact Same.bindl (hloop fuel s b.1 b.2 hs')
  have hb : A.execBody env ncb fuel = ({ A with iter := iter' } : Alg X).execBody env ncb fuel := hbody (World.init env.opt)
  rw [exec_eq, exec_eq, hb]
  rcases ({ A with iter := iter' } : Alg X).execBody env ncb fuel with ⟨r | e, w⟩ <;> rfl

/-! ## Programs that differ in parts of their results only -/

/-- The two programs behave alike from every world: same effects, the same exception or results related by `R`. -/
def Alike (env : Env X) (R : α → β → Prop) (p : Prog X α) (q : Prog X β) : Prop :=
  ∀ w, (∃ a b w', p.run env w = (.ok a, w') ∧ q.run env w = (.ok b, w') ∧ R a b) ∨
    ∃ e w', p.run env w = (.error e, w') ∧ q.run env w = (.error e, w')

namespace Alike
variable {γ δ σ τ ι : Type} {R : α → β → Prop} {S : γ → δ → Prop}

theorem pure {a : α} {b : β} (h : R a b) : Alike env R (Pure.pure a : Prog X α) (Pure.pure b) :=
  fun w => .inl ⟨a, b, w, rfl, rfl, h⟩

theorem throw {e : PyErr} : Alike env R (.throw e : Prog X α) (.throw e) := fun w => .inr ⟨e, w, rfl, rfl⟩

theorem refl (p : Prog X α) : Alike env Eq p p := fun w => by
  rcases h : p.run env w with ⟨e | a, w'⟩
  · exact .inr ⟨e, w', rfl, rfl⟩
  · exact .inl ⟨a, a, w', rfl, rfl, rfl⟩

theorem bind {p : Prog X α} {q : Prog X β} {f : α → Prog X γ} {k : β → Prog X δ} (h : Alike env R p q)
    (hf : ∀ a b, R a b → Alike env S (f a) (k b)) : Alike env S (p.bind f) (q.bind k) := fun w => by
  rw [Prog.run_bind, Prog.run_bind]
  rcases h w with ⟨a, b, w', h1, h2, h3⟩ | ⟨e, w', h1, h2⟩
  · rw [h1, h2]; exact hf a b h3 w'
  · rw [h1, h2]; exact .inr ⟨e, w', rfl, rfl⟩

theorem bind' {p : Prog X α} {q : Prog X β} {f : α → Prog X γ} {k : β → Prog X δ} (h : Alike env R p q)
    (hf : ∀ a b, R a b → Alike env S (f a) (k b)) : Alike env S (p >>= f) (q >>= k) := bind h hf

/-- The two programs begin alike. -/
theorem step {p : Prog X α} {f : α → Prog X γ} {k : α → Prog X δ} (hf : ∀ a, Alike env S (f a) (k a)) : Alike env S (p >>= f) (p >>= k) :=
  bind (refl p) fun a b e => by subst e; exact hf a

theorem ite {c : Prop} [Decidable c] {p p' : Prog X α} {q q' : Prog X β} (h : c → Alike env R p q) (h' : ¬ c → Alike env R p' q') :
    Alike env R (if c then p else p') (if c then q else q') := by
  split
  · exact h ‹_›
  · exact h' ‹_›

theorem forFin {T : σ → τ → Prop} {n : ℕ} {f : Fin n → σ → Prog X σ} {k : Fin n → τ → Prog X τ} {s : σ} {t : τ} (h0 : T s t)
    (hf : ∀ i s t, T s t → Alike env T (f i s) (k i t)) : Alike env T (NiaPy.forFin n f s) (NiaPy.forFin n k t) := by
  induction n generalizing s t with
  | zero => exact pure h0
  | succ n ih => exact bind (hf 0 s t h0) fun a b h => ih h fun i => hf i.succ

theorem forList {T : σ → τ → Prop} {l : List ι} {f : ι → σ → Prog X σ} {k : ι → τ → Prog X τ} {s : σ} {t : τ} (h0 : T s t)
    (hf : ∀ i s t, T s t → Alike env T (f i s) (k i t)) : Alike env T (NiaPy.forList l f s) (NiaPy.forList l k t) := by
  induction l generalizing s t with
  | nil => exact pure h0
  | cons i l ih => exact bind (hf i s t h0) fun a b h => ih h

theorem mono {R' : α → β → Prop} {p : Prog X α} {q : Prog X β} (h : Alike env R p q) (hR : ∀ a b, R a b → R' a b) : Alike env R' p q := fun w =>
  (h w).imp (fun ⟨a, b, w', h1, h2, h3⟩ => ⟨a, b, w', h1, h2, hR a b h3⟩) id

end Alike

/-- What is related: states that show the same, and the same best solution. -/
def Alg.Rel (A A' : Alg X) (T : A.σ → A'.σ → Prop) (r : A.σ × X × Fl) (r' : A'.σ × X × Fl) : Prop := T r.1 r'.1 ∧ r.2 = r'.2

/-- Two algorithms with states related by `T` that are shown to callbacks as the same population cannot be told apart. -/
theorem Alg.exec_alike {A A' : Alg X} (T : A.σ → A'.σ → Prop) (hpop : ∀ s s', T s s' → A.pop s = A'.pop s')
    (hfit : ∀ s s', T s s' → A.fit s = A'.fit s') (h0 : Alike env T A.init A'.init)
    (hi : ∀ s s' xb fxb, T s s' → Alike env (A.Rel A' T) (A.iter s xb fxb) (A'.iter s' xb fxb)) (main : Bool) (ncb fuel : ℕ) :
    A.exec env main ncb fuel = A'.exec env main ncb fuel := by
  have hloop : ∀ fuel s s' xb fxb, T s s' → Alike env (A.Rel A' T) (A.loop ncb fuel s xb fxb) (A'.loop ncb fuel s' xb fxb) := by
    intro fuel
    induction fuel with
    | zero => intros; exact .throw
    | succ n ih =>
      intro s s' xb fxb h
      unfold Alg.loop
      refine .step fun v => .ite (fun _ => .pure ⟨h, rfl⟩) fun _ => ?_
      rw [hpop _ _ h, hfit _ _ h]
      refine .step fun _ => .bind' (hi s s' xb fxb h) fun r r' hr => ?_
      obtain ⟨t, xb, fxb⟩ := r
      obtain ⟨t', xb', fxb'⟩ := r'
      obtain ⟨ht, e⟩ := hr
      cases e
      dsimp only at ht ⊢
      rw [hpop _ _ ht, hfit _ _ ht]
      exact .step fun _ => .step fun _ => ih _ _ _ _ ht
  have hbody : Alike env (A.Rel A' T) (A.body ncb fuel) (A'.body ncb fuel) := by
    unfold Alg.body
    refine .step fun _ => .bind' h0 fun s s' h => ?_
    rw [hpop _ _ h, hfit _ _ h]
    exact .step fun b => .bind' (hloop fuel s s' b.1 b.2 h) fun r r' hr => .step fun _ => .pure hr
  rw [exec_eq, exec_eq]
  rcases hbody (World.init env.opt) with ⟨a, b, w', h1, h2, h3⟩ | ⟨e, w', h1, h2⟩
  · have h1 : A.execBody env ncb fuel = _ := h1
    have h2 : A'.execBody env ncb fuel = _ := h2
    rw [h1, h2]; simp only [h3.2]
  · have h1 : A.execBody env ncb fuel = _ := h1
    have h2 : A'.execBody env ncb fuel = _ := h2
    rw [h1, h2]

end NiaPy
