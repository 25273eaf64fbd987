import Verif.CustomInit

/-!
# Local searches supplied by the user (C109)

`MultipleTrajectorySearch` takes the sequence of its local searches as a parameter (mts.py:366-391, 393-418). A search of the user is modelled as an arbitrary program on
the arguments and results of a search (mts.py:464, 496): it may evaluate as many points as it likes. What is assumed of it is the contract that the searches of the
library meet (`MTS.Honest`).
-/

namespace NiaPy
variable [Arith] {D N : ℕ}

namespace MTS

/-- A local search: the bonuses, then solution, fitness, best solution, best fitness, `improve` and the search range; it returns these and a grade. -/
abbrev SearchFn (D : ℕ) := Fl → Fl → LS D → Prog (Vec D) (LS D)

/-- `MultipleTrajectorySearch.grading_run` (mts.py:440-469) with arbitrary searches (as for `grade`, the bonuses passed are the defaults of the searches of the library). -/
def gradeU (tests : ℕ) (ls : List (SearchFn D)) (s : LS D) : Prog (Vec D) (LS D) :=
  forList ls.zipIdx (fun k s => forFin tests (fun _ s => do
    let s ← k.1 (Fl.ofNat 10) (Fl.ofNat 1) s
    if 3 ≤ k.2 then .throw .indexError else return s) s) s

/-- `MultipleTrajectorySearch.run_local_search` (mts.py:471-499). -/
def runLSU (b1 b2 : Fl) (n : ℕ) (f : SearchFn D) (s : LS D) : Prog (Vec D) (LS D) :=
  forFin n (fun _ s => do
    let r ← f b1 b2 s
    return { r with grade := s.grade + r.grade }) s

/-- mts.py:564-566 -/
def improveU (p : Par) (ls : List (SearchFn D)) (s : LS D) : Prog (Vec D) (LS D) := do
  let r ← gradeU p.tests ls s
  match ls.getLast? with
  | none => .throw .valueError
  | some f => runLSU p.b1 p.b2 p.searches f { r with imp := s.imp, grade := Fl.ofNat 0 }

/-- mts.py:560-566 -/
def turnU (p : Par) (ls : List (SearchFn D)) (i : Fin N) (a : St D N × Vec D × Fl) : Prog (Vec D) (St D N × Vec D × Fl) :=
  if a.1.enable i then do
    let s := a.1
    let r ← improveU p ls ⟨s.pop i, s.fit i, a.2.1, a.2.2, false, s.imp i, s.sr i, Fl.ofNat 0⟩
    return (⟨Function.update s.pop i r.x, Function.update s.fit i r.fx, Function.update s.enable i false, Function.update s.imp i r.imp,
      Function.update s.sr i r.sr, Function.update s.grades i r.grade⟩, r.best, r.fxb)
  else return a

/-- `MultipleTrajectorySearch.run_iteration` (mts.py:531-571); the searches of `p` are not used. -/
def iterU (B : Box D) (p : Par) (ls : List (SearchFn D)) (s : St D N) (xb : Vec D) (fxb : Fl) : Prog (Vec D) (St D N × Vec D × Fl) := do
  let a ← forFin N (turnU p ls) (s, xb, fxb)
  let b ← polish B p.best a.2
  let o ← sortIdx a.1.grades
  return ({ a.1 with enable := fun i => a.1.enable i || (List.finRange N).any fun k => decide ((k : ℕ) < p.enabled ∧ o k = i) }, b)

/-- `MultipleTrajectorySearch` with arbitrary local searches. -/
def algU (B : Box D) (N : ℕ) (p : Par) (ls : List (SearchFn D)) : Alg (Vec D) where
  σ := St D N
  init := init B N
  pop s := List.ofFn s.pop
  fit s := List.ofFn s.fit
  iter := iterU B p ls

theorem forList_map' {X β γ σ : Type} (l : List β) (g : β → γ) (f : γ → σ → Prog X σ) (s : σ) : forList (l.map g) f s = forList l (fun b => f (g b)) s := by
  induction l generalizing s with
  | nil => rfl
  | cons b l ih => simp only [List.map_cons, forList, ih]

theorem zipIdx_map' {α β : Type} (l : List α) (f : α → β) (n : ℕ) : (l.map f).zipIdx n = (l.zipIdx n).map fun k => (f k.1, k.2) := by
  induction l generalizing n with
  | nil => rfl
  | cons a l ih => simp only [List.map_cons, List.zipIdx_cons, ih]

/-- The searches of the library are a special case. -/
theorem algU_eq (B : Box D) (N : ℕ) (p : Par) : algU B N p (p.ls.map fun k b1 b2 => k.run B b1 b2) = alg B N p := by
  have hg : ∀ s, gradeU p.tests (p.ls.map fun k b1 b2 => k.run B b1 b2) s = grade B p s := fun s => by
    unfold gradeU grade
    rw [zipIdx_map', forList_map']
  have hi : improveU p (p.ls.map fun k b1 b2 => k.run B b1 b2) = improve B p := by
    funext s
    unfold improveU improve
    simp only [hg, List.getLast?_map]
    congr 1
    funext r
    cases p.ls.getLast? <;> rfl
  have ht : turnU (N := N) p (p.ls.map fun k b1 b2 => k.run B b1 b2) = turn B p := by
    funext i a
    unfold turnU turn
    rw [hi]
  have hit : iterU (N := N) B p (p.ls.map fun k b1 b2 => k.run B b1 b2) = iter B p := by
    funext s xb fxb
    unfold iterU iter
    rw [ht]
  unfold algU alg
  rw [hit]

/-- The state of a search that keeps its books: the current fitness is one the task has returned for some point, the best solution has the best fitness, and the best
fitness is the lowest of all values returned so far (the last two as far as a context talks about them). -/
structure Booked (C : Ctx (Vec D)) (s : LS D) (g : Ghost (Vec D)) : Prop where
  own : s.same = false
  cur : ∃ y, C.Fit g.b y s.fx
  inc : Inc C s.xb s.fxb g

/-- The contract: a search that is given correct books returns correct books, evaluates only what the task may evaluate (repaired points, or points within the bounds),
and comes to an end. -/
def Honest (B : Box D) (i : Bool) (f : SearchFn D) : Prop := ∀ C, Assumed B true i C → ∀ b1 b2 s g, Booked C s g → (f b1 b2 s).wp C (fun t g' => Booked C t g') g

variable {B : Box D} {C : Ctx (Vec D)} {g : Ghost (Vec D)} {s : LS D} {p : Par} {ls : List (SearchFn D)} {i : Bool}

/-- Evaluations are counted upwards. -/
theorem wp_grows {X α : Type} {C : Ctx X} {p : Prog X α} {Q : α → Ghost X → Prop} {g : Ghost X} (h : p.wp C Q g) : p.wp C (fun a g' => Q a g' ∧ g.c ≤ g'.c) g := by
  induction p generalizing g with
  | pure a => exact ⟨h, le_refl _⟩
  | throw e => exact h
  | op o k ih =>
    cases o with
    | eval x =>
      refine ⟨h.1, fun v hv => ?_, fun e he => ?_⟩
      · exact Prog.wp_mono (fun a g' hg => ⟨hg.1, le_trans (Nat.le_succ _) hg.2⟩) (ih _ (h.2.1 v hv))
      · exact Prog.wp_mono (fun a g' hg => ⟨hg.1, le_trans (Nat.le_succ _) hg.2⟩) (ih _ (g := ⟨g.b, g.c + 1, g.ev⟩) (h.2.2 e he))
    | nextIter => exact ⟨h.1, ih _ h.2⟩
    | look => exact fun v => ih _ (h v)
    | repair s x => exact ⟨h.1, fun y hy hr => ih _ (h.2 y hy hr)⟩
    | rand => exact fun r h0 h1 => ih _ (h r h0 h1)
    | unif lo hi => exact ⟨fun e he => ih _ (h.1 e he), fun r hr => ih _ (h.2 r hr)⟩
    | dist d a b => exact ⟨fun e he => ih _ (h.1 e he), fun r => ih _ (h.2 r)⟩
    | int n => exact ⟨fun h0 => ih _ (h.1 h0), fun k hk => ih _ (h.2 k hk)⟩
    | perm n => exact fun l hl => ih _ (h l hl)
    | argsort fs => exact fun l hl hs => ih _ (h l hl hs)
    | fire i e => exact ⟨h.1, ih _ (g := g.fire i e) h.2.1, fun e' he => ih _ (g := g.fire i e) (h.2.2 e' he)⟩

theorem wp_improveU (hC : Assumed B true i C) (hl : ∀ f ∈ ls, Honest B i f) (h : Booked C s g) : (improveU p ls s).wp C (fun t g' => Booked C t g') g := by
  unfold improveU gradeU
  rw [Prog.wp_bind']
  refine Prog.wp_mono (fun r g' hr => ?_) (wp_forList (fun t g' => Booked C t g') h fun k hk t g' ht => ?_)
  · split
    · exact nofun
    · rename_i f hf
      refine wp_forFin (fun _ t g' => Booked C t g') ⟨hr.own, hr.cur, hr.inc⟩ fun j t g' ht => ?_
      rw [Prog.wp_bind']
      exact Prog.wp_mono (fun r g'' h => ⟨h.own, h.cur, h.inc⟩) (hl f (List.mem_of_getLast? hf) C hC _ _ _ _ ht)
  · refine wp_forFin (fun _ t g' => Booked C t g') ht fun j t g' ht => ?_
    rw [Prog.wp_bind']
    refine Prog.wp_mono (fun r g'' h => ?_) (hl k.1 (List.fst_mem_of_mem_zipIdx (x := k) hk) C hC _ _ _ _ ht)
    split
    · exact nofun
    · exact h

/-- Whatever the searches are, if they keep their books: everything evaluated is repaired or within the bounds, the best is known, and a run ends. -/
theorem verifiedU (B : Box D) (N : ℕ) (p : Par) (hl : ∀ f ∈ ls, Honest B i f) :
    VerifiedIf (fun C => Assumed B true i C ∧ Reg B p C) (algU B N p ls) B.Mem true true ⟨N, p.best * D, none⟩ False := by
  refine ⟨fun C s b => ∀ j, ∃ y, C.Fit b y (s.fit j), fun C ⟨hP, hr⟩ hG _ _ => ⟨False.elim, fun g hg => ?_, ?_⟩⟩
  · simp only [algU, init, Prog.wp_bind']
    exact wp_initArr hG hg fun r g' _ _ h3 h4 h5 => ⟨fun j => ⟨_, h3 j⟩, forall₂_ofFn h3, h4, h5⟩
  · intro s xb fxb g hI hF hc
    simp only [algU, iterU, Prog.wp_bind']
    refine Prog.wp_mono (fun a g' h => ?_) (wp_forFin (σ := St D N × Vec D × Fl)
      (fun _ a g' => (∀ j, ∃ y, C.Fit g'.b y (a.1.fit j)) ∧ Inc C a.2.1 a.2.2 g' ∧ g.c ≤ g'.c) ⟨hI, ⟨hF, hc⟩, le_refl _⟩ ?_)
    · refine Prog.wp_mono (fun b g'' hb => ?_) (Prog.wp_below (wp_polish (B := B) (n := p.best) hr h.2.1))
      refine Yields.sortIdx.wp fun o _ => ⟨fun j => (h.1 j).imp fun _ hy => hy.mono hb.2, hb.1.1.fit, hb.1.1.eq, ?_, nofun⟩
      have := hb.1.2.1
      have := h.2.2
      change g.c + p.best * D ≤ g''.c
      omega
    · rintro j ⟨s, xb, fxb⟩ g' ⟨h1, h2, h3⟩
      unfold turnU
      split
      · rw [Prog.wp_bind']
        refine Prog.wp_mono ?_ (wp_grows (Prog.wp_below (wp_improveU (p := p) hP hl (s := ⟨s.pop j, s.fit j, xb, fxb, false, s.imp j, s.sr j, Fl.ofNat 0⟩) ⟨rfl, h1 j, h2⟩)))
        rintro r g'' ⟨⟨hr, hb⟩, hc⟩
        refine ⟨fun k => ?_, by simpa [LS.best, hr.own] using hr.inc, ?_⟩
        · by_cases e : k = j
          · subst e; simpa using hr.cur
          · simpa [Function.update_of_ne e] using (h1 k).imp fun _ hy => hy.mono hb
        · exact le_trans h3 hc
      · exact ⟨h1, h2, h3⟩

/-- C109: multiple trajectory search with searches of the user and any number of searches around the best solution returns the best of all values, with a solution that
has it, if no objective value is NaN and repair gives points within the bounds and leaves coordinates within the bounds alone (as C74). -/
theorem C109_mts (B : Box D) (N : ℕ) (p : Par) (hl : ∀ f ∈ ls, Honest B true f) (env : Env (Vec D)) (hn : NoNaN env)
    (hr : ∀ rng k x, B.NotOut (env.repairFn rng k x)) (hk : Keeps B env) (main : Bool) (ncb fuel : ℕ) (out : RunOut (Vec D)) (x : Vec D) (f : Fl)
    (hrun : ((algU B N p ls).exec env main ncb fuel).1 = .ok out) (hres : out.result = some (x, f)) :
    ((x, .ok f) ∈ ((algU B N p ls).exec env main ncb fuel).2.calls ∨ f = env.opt.mul .pinf) ∧
      BestOf env.opt (values ((algU B N p ls).exec env main ncb fuel).2.calls) f :=
  have hM : ∀ trk, MetBy (fun C => Assumed B true true C ∧ Reg B p C) env trk B.NotOut := fun _ C h1 h2 h3 h4 h5 =>
    ⟨metBy_assumed_notOut B true env (.inl rfl) C h1 h2 h3 h4 h5, metBy_reg hn hk p _ C h1 h2 h3 h4 h5⟩
  ⟨C27_solution_fitness (verifiedU B N p hl) env (hM _) main ncb fuel out x f hrun hres (fun _ h => h.notOut) hr,
    (C26_returned_is_best (verifiedU B N p hl) env (hM _) hn main ncb fuel out x f hrun hres (fun _ h => h.notOut) hr).2⟩

/-- A search of a user: it tries one point, half as far from zero as the best solution, and keeps its books. -/
def Ex.mine : SearchFn D := fun b1 _ s => do
  let y ← Prog.repair fun j => s.xb j / Fl.ofNat 2
  let f ← Prog.eval y
  return s.record y f b1

theorem Ex.mine_honest : Honest B i (Ex.mine (D := D)) := by
  intro C _ b1 b2 s g h
  simp only [Ex.mine, Prog.wp_bind']
  refine Yields.repair.wp fun y hy => ?_
  rw [Prog.wp_eval]
  refine ⟨hy, fun f hf => ?_⟩
  have hS : Sep B C False s g := ⟨h.own, h.cur, by simpa [LS.best, h.own] using h.inc, fun e => absurd (h.own.symm.trans e) Bool.false_ne_true, nofun, fun _ => h.own⟩
  have := hS.next hf (t := s.record y f b1) (record_same h.own) (fun hlt => (record_lt hlt).2) (fun hn => by rw [record_not hn]; exact ⟨rfl, rfl⟩) (.inl record_fx) nofun
  exact ⟨this.1, this.2.cur, by simpa [LS.best, this.1] using this.2.inc⟩

omit [Arith] in
/-- A search that evaluates a point and forgets what it found breaks the claim: what the run returns is not the best value evaluated. -/
theorem C109_mts_forgetful_false : (@algU NiaPy.Ex.arith 1 (NiaPy.Ex.box 1) 1 ⟨1, 1, 0, 1, .fin 10, .fin 1, []⟩
    [fun _ _ s => (Prog.eval fun _ => .fin 0).bind fun _ => .pure s]).LosesBest NiaPy.Ex.env2 :=
  .of (fuel := 5) (f := .fin (9 / 4)) (b := .fin 0) (by decide +kernel) (by decide +kernel)

end MTS
end NiaPy
