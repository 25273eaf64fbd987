import Verif.PopTools
import Verif.Runs

/-!
# Forest optimization algorithm (algorithms/basic/foa.py)
-/

namespace NiaPy.FOA
variable [Arith] {D : ℕ}

/-- Parameters (foa.py:64-86). -/
structure Par where
  lifetime : ℕ
  areaLimit : ℕ
  localChanges : ℕ
  globalChanges : ℕ
  transferRate : Fl

/-- One row of the three arrays `population`, `population_fitness`, `age`. -/
structure Tree (D : ℕ) where
  x : Vec D
  f : Fl
  age : ℕ

/-- `init_population` (foa.py:210-230). The attribute `dx` is computed where it is used. -/
def init (B : Box D) (N : ℕ) : Prog (Vec D) (List (Tree D)) := do
  let (pop, fit) ← defaultNumpyInit B N
  return List.ofFn fun i => ⟨pop i, fit i, 0⟩

/-- `self.dx` (foa.py:229). -/
def dx (B : Box D) (j : Fin D) : Fl := Fl.abs (B.hi j) / Fl.ofNat 5

/-- `x[indices] = ...`: `v` in the positions among `idx`, `x` elsewhere. -/
def setAt {k : ℕ} (idx : Fin k → Fin D) (v x : Vec D) : Vec D := fun j => if ∃ i, idx i = j then v j else x j

/-- One round of the loop in `local_seeding` (foa.py:141-144). -/
def localSeed (B : Box D) (p : Par) (x : Vec D) : Prog (Vec D) (Vec D) := do
  let idx ← choiceFin D p.localChanges
  let u ← unifVec (fun j => -dx B j) (dx B)
  Prog.repair (setAt idx (fun j => x j + u j) x)

/-- `local_seeding` (foa.py:129-145). -/
def localSeeding (B : Box D) (p : Par) (trees : List (Vec D)) : Prog (Vec D) (List (Vec D)) :=
  mapM' (trees.flatMap fun x => List.replicate p.localChanges x) (localSeed B p)

/-- One round of the loop in `global_seeding` (foa.py:160-162). The seed is not repaired. -/
def globalSeed (B : Box D) (p : Par) (x : Vec D) : Prog (Vec D) (Vec D) := do
  let idx ← choiceFin D p.globalChanges
  let u ← unifVec B.lo B.hi
  return setAt idx u x

/-- `global_seeding` (foa.py:147-163). -/
def globalSeeding (B : Box D) (p : Par) (candidates : List (Vec D)) (size : ℕ) : Prog (Vec D) (List (Vec D)) := do
  let idx ← choiceFin candidates.length size
  mapM' (List.ofFn fun i => candidates.get (idx i)) (globalSeed B p)

/-- Evaluating rows and keeping their ages; `np.apply_along_axis` raises `ValueError` for no rows. -/
def evalTrees (l : List (Vec D × ℕ)) : Prog (Vec D) (List (Tree D)) :=
  if l.isEmpty then .throw .valueError else mapM' l fun t => do
    let v ← Prog.eval t.1
    return ⟨t.1, v, t.2⟩

/-- `age[ib] = 0` with `ib = np.argmin(population_fitness)` (foa.py:267-268). -/
def freshen (l : List (Tree D)) : List (Tree D) :=
  match argmin (l.map (·.f)) with
  | .ok k => l.modify k fun t => { t with age := 0 }
  | .error _ => l

/-- `self.global_seeding` and the evaluation of the new trees (foa.py:260-266). -/
def globalPhase (B : Box D) (p : Par) (kept : List (Tree D)) (candidates : List (Vec D)) : Prog (Vec D) (List (Tree D)) :=
  let gsn := scaleNat p.transferRate candidates.length
  if 0 < gsn then do
    let seeds ← globalSeeding B p candidates gsn
    let new ← evalTrees (seeds.map (·, 0))
    return kept ++ new
  else return kept

/-- `run_iteration` (foa.py:232-271), with `remove_lifetime_exceeded` (165-183) and `survival_of_the_fittest`
(185-208). -/
def iter (B : Box D) (p : Par) (s : List (Tree D)) (xb : Vec D) (fxb : Fl) : Prog (Vec D) (List (Tree D) × Vec D × Fl) := do
  let seeds ← localSeeding B p ((s.filter (·.age = 0)).map (·.x))
  let aged := s.map fun t => (t.x, t.age + 1)
  let dead := (aged.filter (p.lifetime < ·.2)).map (·.1)
  let alive := aged.filter (¬ p.lifetime < ·.2)
  let evaluated ← evalTrees (alive ++ seeds.map (·, 0))
  let sorted ← sortRecs (·.f) evaluated
  let pop ← globalPhase B p (sorted.take p.areaLimit) (dead ++ (sorted.drop p.areaLimit).map (·.x))
  let best ← argminRec (·.f) pop
  return (freshen pop, betterLt best.x best.f xb fxb)

/-- The forest optimization algorithm with population size `N` (foa.py). -/
def alg (B : Box D) (N : ℕ) (p : Par) : Alg (Vec D) where
  σ := List (Tree D)
  init := init B N
  pop s := s.map (·.x)
  fit s := s.map (·.f)
  iter := iter B p

variable {C : Ctx (Vec D)} {g : Ghost (Vec D)}

theorem localSeeding_good (B : Box D) (p : Par) (l : List (Vec D)) : Yields C (localSeeding B p l) fun r => ∀ x ∈ r, C.G x := by
  refine (Yields.mapMAll fun x _ => ?_).mono fun r hr => hr.1
  unfold localSeed
  yields

omit [Arith] in
theorem globalSeeding_good (B : Box D) (p : Par) (l : List (Vec D)) (n : ℕ) (hm : MixOK B C) (h : ∀ x ∈ l, C.G x) :
    Yields C (globalSeeding B p l n) fun r => ∀ x ∈ r, C.G x := by
  unfold globalSeeding
  refine Yields.bindT Yields.choiceFin.quiet fun idx => ?_
  refine (Yields.mapMAll fun x hx => ?_).mono fun r hr => hr.1
  · unfold globalSeed
    refine Yields.bindT Yields.choiceFin.quiet fun idx' => Yields.bind' Yields.unifVec fun u hu => .pure' ?_
    rw [List.mem_ofFn] at hx
    obtain ⟨i, rfl⟩ := hx
    exact hm (fun j => ∃ i, idx' i = j) _ _ (h _ (List.get_mem ..)) fun j => hu j (B.le j)

omit [Arith] in
theorem wp_evalTrees {l : List (Vec D × ℕ)} {S : Fl → Prop} (hG : ∀ t ∈ l, C.G t.1) (h0 : Cov C S g) {Q : List (Tree D) → Ghost (Vec D) → Prop}
    (hQ : ∀ r g', 0 < l.length → Below g'.b g.b → (∀ e ∈ r, C.Fit g'.b e.x e.f ∧ C.G e.x) → Cov C (fun u => S u ∨ ∃ e ∈ r, u = e.f) g' →
      g'.c = g.c + l.length → Q r g') : (evalTrees l).wp C Q g := by
  unfold evalTrees
  split
  · exact nofun
  · rename_i hne
    have hpos : 0 < l.length := List.length_pos_iff.2 fun h => by simp [h] at hne
    refine Prog.wp_mono (fun r g' h => ?_) (Prog.wp_below (wp_mapM_cov (fun a : Tree D => a.x) (fun a => a.f) (fun a => C.G a.x) 1 h0 fun b hb g S hS => ?_))
    · obtain ⟨⟨e1, e2, e3, -, e4⟩, hb⟩ := h
      exact hQ r g' hpos hb (fun e he => ⟨e2 e he, e3 e he⟩) e1 (by simpa using e4)
    · simp only [Prog.wp_bind', Prog.wp_eval]
      exact ⟨hG b hb, fun v hv => ⟨(hS.eval v).mono fun u hu => hu.symm, .new hv, hG b hb, rfl⟩⟩

omit [Arith] in
theorem mem_freshen {l : List (Tree D)} {e : Tree D} (h : e ∈ freshen l) : ∃ e' ∈ l, e.x = e'.x ∧ e.f = e'.f := by
  unfold freshen at h
  split at h
  · rename_i k _
    obtain ⟨i, hi⟩ := List.mem_iff_getElem?.1 h
    rw [List.getElem?_modify] at hi
    obtain ⟨a, ha, rfl⟩ := Option.map_eq_some_iff.1 hi
    refine ⟨a, List.mem_of_getElem? ha, ?_⟩
    split <;> exact ⟨rfl, rfl⟩
  · exact ⟨e, h, rfl, rfl⟩

omit [Arith] in
theorem wp_globalPhase (B : Box D) (p : Par) (kept : List (Tree D)) (cand : List (Vec D)) (hm : MixOK B C)
    (hk : ∀ e ∈ kept, C.Fit g.b e.x e.f ∧ C.G e.x) (hcand : ∀ x ∈ cand, C.G x) {S : Fl → Prop}
    (hc : Cov C (fun u => S u ∨ ∃ e ∈ kept, u = e.f) g) {Q : List (Tree D) → Ghost (Vec D) → Prop}
    (hQ : ∀ r g', Below g'.b g.b → (∀ e ∈ r, C.Fit g'.b e.x e.f ∧ C.G e.x) → Cov C (fun u => S u ∨ ∃ e ∈ r, u = e.f) g' →
      g.c ≤ g'.c → Q r g') : (globalPhase B p kept cand).wp C Q g := by
  unfold globalPhase
  simp only
  split
  · simp only [Prog.wp_bind']
    refine (globalSeeding_good B p cand _ hm hcand).wp fun seeds hs => ?_
    refine wp_evalTrees (fun t ht => ?_) hc fun new g' _ hb hf hcov hn => hQ _ _ hb ?_ ?_ (by omega)
    · obtain ⟨x, hx, rfl⟩ := List.mem_map.1 ht
      exact hs x hx
    · intro e he
      rcases List.mem_append.1 he with he | he
      · exact ⟨(hk e he).1.mono hb, (hk e he).2⟩
      · exact hf e he
    · refine hcov.mono ?_
      rintro u ((h | ⟨e, he, rfl⟩) | ⟨e, he, rfl⟩)
      · exact Or.inl h
      · exact Or.inr ⟨e, by simp [he], rfl⟩
      · exact Or.inr ⟨e, by simp [he], rfl⟩
  · exact hQ _ _ (Below.refl _) hk hc le_rfl

/-- The obligations of the forest optimization algorithm. Global seeds are not repaired; they mix coordinates of repaired
solutions with coordinates drawn from the box (`MixOK`). -/
theorem verified (B : Box D) (N : ℕ) (p : Par) (ha : 0 < p.areaLimit) :
    VerifiedIf (MixOK B) (alg B N p) B.Mem true true ⟨N, 1, none⟩ := by
  refine ⟨fun C (s : List (Tree D)) b => ∀ t ∈ s, C.Fit b t.x t.f ∧ C.G t.x, fun C hm hG _ _ => AlgOK.toW ⟨fun s b h => forall₂_map fun e he => (h e he).1, fun g hg => ?_, ?_⟩⟩
  · simp only [alg, init, Prog.wp_bind']
    refine wp_initArr hG hg fun r g' _ hm h3 h4 h5 => ⟨?_, ?_, h5⟩
    · intro t ht
      rw [List.mem_ofFn] at ht
      obtain ⟨i, rfl⟩ := ht
      exact ⟨h3 i, hG _ (hm i)⟩
    · refine h4.mono fun u hu => ?_
      simp only [alg, List.map_ofFn]
      exact hu
  · intro s xb fxb g hI hF hc
    have hinc : Inc C xb fxb g := ⟨hF, hc⟩
    simp only [alg, iter, Prog.wp_bind']
    refine (localSeeding_good B p _).wp fun seeds hs => ?_
    refine wp_evalTrees ?_ hinc.cov fun ev g1 hpos hb1 hf1 hc1 hn1 => ?_
    · intro t ht
      rcases List.mem_append.1 ht with ht | ht
      · obtain ⟨t', ht', rfl⟩ := List.mem_map.1 (List.mem_filter.1 ht).1
        exact (hI t' ht').2
      · obtain ⟨x, hx, rfl⟩ := List.mem_map.1 ht
        exact hs x hx
    refine Yields.sortRecs.wp fun sorted hsort => ?_
    have hs1 : ∀ e ∈ sorted, C.Fit g1.b e.x e.f ∧ C.G e.x := fun e he => hf1 e (hsort.1.mem_iff.1 he)
    refine wp_globalPhase B p _ _ hm (fun e he => hs1 e (List.mem_of_mem_take he)) ?_
      (hc1.sorted hsort.1 hsort.2 (fun hn e he => hn _ _ (hf1 e he).1.1) ha) fun pop g2 hb2 hf2 hc2 hn2 => ?_
    · intro x hx
      rcases List.mem_append.1 hx with hx | hx
      · obtain ⟨t, ht, rfl⟩ := List.mem_map.1 hx
        obtain ⟨t', ht', rfl⟩ := List.mem_map.1 (List.mem_filter.1 ht).1
        exact (hI t' ht').2
      · obtain ⟨e, he, rfl⟩ := List.mem_map.1 hx
        exact (hs1 e (List.mem_of_mem_drop he)).2
    refine wp_argminRec fun best hbest hmin => ?_
    have hbf := (hf2 best hbest).1
    have hinc2 : Inc C (betterLt best.x best.f xb fxb).1 (betterLt best.x best.f xb fxb).2 g2 := by
      exact Inc.argminLt (pt := (·.x)) (val := (·.f)) hbest hmin (fun e he => (hf2 e he).1) ((hinc.toFit.mono hb1).mono hb2) hc2
    refine ⟨fun t ht => ?_, hinc2.fit, hinc2.eq, ?_, nofun⟩
    · obtain ⟨t', ht', e1, e2⟩ := mem_freshen ht
      rw [e1, e2]; exact hf2 t' ht'
    · simp only; omega

/-- Two iterations of a concrete run. -/
example : (@alg Ex.arith 2 (Ex.box 2) 3 ⟨3, 2, 1, 1, .fin (1 / 2)⟩).okIters Ex.env2 1 5 = some 2 := by decide +kernel

end NiaPy.FOA
