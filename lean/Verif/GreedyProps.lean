import Verif.Summary

/-!
# C32: one-to-one survivor selection never makes an individual worse
-/

namespace NiaPy
variable {X : Type} [Arith] {D : ℕ}

/-- A fitness value that is the same or not larger. -/
def NotWorse (new old : Fl) : Prop := new = old ∨ new ≤ old

omit [Arith] in
theorem NotWorse.refl (a : Fl) : NotWorse a a := Or.inl rfl

omit [Arith] in
theorem NotWorse.trans {a b c : Fl} (h : NotWorse a b) (h' : NotWorse b c) : NotWorse a c := by
  rcases h with rfl | h
  · exact h'
  · rcases h' with rfl | h'
    · exact Or.inr h
    · exact Or.inr (Fl.le_trans h h')

omit [Arith] in
theorem NotWorse.update {N : ℕ} {fit fit0 : Fin N → Fl} (h : ∀ j, NotWorse (fit j) (fit0 j)) (i : Fin N) {v : Fl} (hv : v ≤ fit i) :
    ∀ j, NotWorse (Function.update fit i v j) (fit0 j) := fun j => by
  by_cases hj : j = i
  · subst hj
    rw [Function.update_self]
    exact NotWorse.trans (Or.inr hv) (h j)
  · rw [Function.update_of_ne hj]
    exact h j

/-- The fitness at each position of the population, before and after an iteration. -/
def Greedy (A : Alg X) : Prop := ∀ s xb fxb g,
  (A.iter s xb fxb).wp Ctx.any (fun r _ => List.Forall₂ NotWorse (A.fit r.1) (A.fit s)) g

omit [Arith] in
theorem forall₂_ofFn_fl {R : Fl → Fl → Prop} {N : ℕ} {f f' : Fin N → Fl} (h : ∀ i, R (f i) (f' i)) : List.Forall₂ R (List.ofFn f) (List.ofFn f') := by
  rw [List.forall₂_iff_get]
  exact ⟨by simp, fun i h1 h2 => by simpa using h ⟨i, by simpa using h1⟩⟩

theorem BA.greedy (B : Box D) (N : ℕ) (p : BA.Par) : Greedy (BA.alg B N p) := by
  intro s xb fxb g
  have key : ∀ s : BA.St D N, (BA.iter p s xb fxb).wp Ctx.any (fun r _ => ∀ i, NotWorse (r.1.fit i) (s.fit i)) g := by
    intro s
    simp only [BA.iter, Prog.wp_bind', Prog.wp_look]
    intro v
    refine wp_forFin' (C := Ctx.any) (fun (a : BA.St D N × Vec D × Fl) _ => ∀ i, NotWorse (a.1.fit i) (s.fit i)) (fun i => .refl _) ?_
    rintro i ⟨s', xb, fxb⟩ g h
    simp only [BA.step, Prog.wp_bind', Prog.wp_rand]
    intro r _ _
    refine (BA.candidate_good trivial ..).wp fun y hy => ?_
    rw [Prog.wp_eval]
    refine ⟨trivial, fun v _ => ?_⟩
    refine Yields.wp (P := fun b => b = true → v ≤ s'.fit i) ?_ fun b hb => ?_
    · refine Yields.ite (fun h => Yields.bindT Yields.rand.quiet fun r => .pure' fun _ => h) fun _ => .pure' nofun
    · cases b
      · exact h
      · exact NotWorse.update h i (hb rfl)
  exact Prog.wp_mono (fun r _ h => forall₂_ofFn_fl h) (key s)

omit [Arith] in
theorem keepBetter_notWorse {N : ℕ} (pop new : Fin N → X) (fit newF : Fin N → Fl) (i : Fin N) :
    NotWorse ((keepBetter pop new fit newF).2 i) (fit i) := by
  simp only [keepBetter]
  split
  · rename_i h; exact Or.inr (Fl.le_of_lt h)
  · exact .refl _

theorem CS.greedy (B : Box D) (N : ℕ) (pa : Fl) : Greedy (CS.alg B N pa) := by
  intro s xb fxb g
  have key : ∀ s : CS.St D N, (CS.iter pa s xb fxb).wp Ctx.any (fun r _ => ∀ i, NotWorse (r.1.fit i) (s.fit i)) g := by
    intro s
    simp only [CS.iter, Prog.wp_bind']
    refine Prog.wp_any _ (fun new g => Prog.wp_any _ (fun newF g => Prog.wp_any _ (fun b g => ?_) g) g) g
    refine Prog.wp_any _ (fun new' g => Prog.wp_any _ (fun newF' g => Prog.wp_any _ (fun b' g i => ?_) g) g) g
    exact (keepBetter_notWorse (keepBetter s.pop new s.fit newF).1 new' _ _ i).trans (keepBetter_notWorse s.pop new _ _ i)
  exact Prog.wp_mono (fun r _ h => forall₂_ofFn_fl h) (key s)

theorem FPA.greedy (B : Box D) (N : ℕ) (p : Fl) : Greedy (FPA.alg B N p) := by
  intro s xb fxb g
  have key : ∀ s : FPA.St D N, (FPA.iter p s xb fxb).wp Ctx.any (fun r _ => ∀ i, NotWorse (r.1.fit i) (s.fit i)) g := by
    intro s
    simp only [FPA.iter]
    refine wp_forFin' (C := Ctx.any) (fun (a : FPA.St D N × Vec D × Fl) _ => ∀ i, NotWorse (a.1.fit i) (s.fit i)) (fun i => .refl _) ?_
    rintro i ⟨s', xb, fxb⟩ g h
    simp only [FPA.step, Prog.wp_bind']
    refine (FPA.candidate_good ..).wp fun y hy => ?_
    rw [Prog.wp_eval]
    refine ⟨trivial, fun v _ => ?_⟩
    simp only [Prog.wp_pure']
    split
    · rename_i hle; exact NotWorse.update h i hle
    · exact h
  exact Prog.wp_mono (fun r _ h => forall₂_ofFn_fl h) (key s)

theorem HS.greedy (B : Box D) (N : ℕ) (p : HS.Par) : Greedy (HS.alg B N p) := by
  intro s xb fxb g
  have key : ∀ s : HS.St D N, (HS.iter B p s xb fxb).wp Ctx.any (fun r _ => ∀ i, NotWorse (r.1.fit i) (s.fit i)) g := by
    intro s
    simp only [HS.iter, Prog.wp_bind']
    refine (HS.improvise_quiet B p s).wp fun h _ => Yields.repair.wp fun h hh => ?_
    rw [Prog.wp_eval]
    refine ⟨trivial, fun v _ => wp_argmaxIdx fun iw _ => ?_⟩
    simp only [Prog.wp_pure']
    split
    · rename_i hle; exact NotWorse.update (fun _ => .refl _) iw hle
    · exact fun _ => .refl _
  exact Prog.wp_mono (fun r _ h => forall₂_ofFn_fl h) (key s)

namespace DE
variable {E : Type}

omit [Arith] in
theorem survivors_notWorse (l : List (Ind D E)) (new : Fin l.length → Ind D E) :
    List.Forall₂ NotWorse ((survivors l new).map (·.f)) (l.map (·.f)) := by
  rw [List.forall₂_iff_get]
  refine ⟨by simp [survivors], fun i h1 h2 => ?_⟩
  simp only [survivors, List.get_eq_getElem, List.getElem_map, List.getElem_ofFn]
  split
  · rename_i h; exact Or.inr (Fl.le_of_lt h)
  · exact .refl _

/-- Without `post_selection`, every position keeps the better one. -/
theorem iter_notWorse (ev : Evolve D E) (l : List (Ind D E)) (xb : Vec D) (fxb : Fl) (g : Ghost (Vec D)) :
    (iter ev select pure l xb fxb).wp Ctx.any (fun r _ => List.Forall₂ NotWorse (r.1.map (·.f)) (l.map (·.f))) g := by
  simp only [iter, Prog.wp_bind']
  refine Prog.wp_any _ (fun new g => ?_) g
  simp only [select, best, Prog.wp_bind', Prog.wp_pure']
  refine Prog.wp_any _ (fun b g => Prog.wp_any _ (fun b' g => ?_) g) g
  exact survivors_notWorse l new

end DE

/-- Modelled algorithms with one-to-one survivor selection. -/
inductive OneToOne (opt : OptType) (B : Box D) : Alg (Vec D) → Prop
  | ba (N p) : OneToOne opt B (BA.alg B N p)
  | cs (N pa) : OneToOne opt B (CS.alg B N pa)
  | fpa (N p) : OneToOne opt B (FPA.alg B N p)
  | hs (N p) : OneToOne opt B (HS.alg B N p)
  | de (N strat f cr) : OneToOne opt B (DE.alg opt B N strat f cr)
  | deMulti (N strats f cr) : OneToOne opt B (DE.algMulti opt B N strats f cr)
  | jde (N strat p) : OneToOne opt B (JDE.alg opt B N strat p)
  | jdeMulti (N strats f cr) : OneToOne opt B (JDE.algMulti opt B N strats f cr)

theorem OneToOne.greedy {opt : OptType} {B : Box D} {A : Alg (Vec D)} (h : OneToOne opt B A) : Greedy A := by
  cases h with
  | ba N p => exact BA.greedy B N p
  | cs N pa => exact CS.greedy B N pa
  | fpa N p => exact FPA.greedy B N p
  | hs N p => exact HS.greedy B N p
  | de N strat f cr => exact fun s xb fxb g => DE.iter_notWorse _ s xb fxb g
  | deMulti N strats f cr => exact fun s xb fxb g => DE.iter_notWorse _ s xb fxb g
  | jde N strat p => exact fun s xb fxb g => DE.iter_notWorse _ s xb fxb g
  | jdeMulti N strats f cr => exact fun s xb fxb g => DE.iter_notWorse _ s xb fxb g

/-- C32: in the algorithms with one-to-one survivor selection, at the head of every iteration the fitness at each position of the
population is the one that was there before or a smaller one. -/
theorem C32_greedy {opt : OptType} {B : Box D} {A : Alg (Vec D)} (hA : OneToOne opt B A) (env : Env (Vec D)) (ncb : ℕ)
    (hist : List (A.σ × Vec D × Fl)) (w : World (Vec D)) (h : A.Trace env ncb hist w) :
    hist.IsChain fun r' r => List.Forall₂ (fun new old => new = old ∨ new ≤ old) (A.fit r'.1) (A.fit r.1) :=
  h.chain fun r g => hA.greedy r.1 r.2.1 r.2.2 g

/-- An execution of cuckoo search with two iterations. -/
example : ∃ hist w, Alg.Trace Ex.cs Ex.env2 2 hist w ∧ hist.length = 3 :=
  letI := Ex.arith; (CS.verified (Ex.box 1) 3 (.fin (1 / 4))).toIf.exists_trace Ex.env2 (metBy_none _ _) (fuel := 5) (by decide +kernel)

end NiaPy
