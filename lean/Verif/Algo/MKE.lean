import Verif.Steps
import Mathlib.Algebra.BigOperators.Fin

/-!
# Monkey king evolution (`niapy/algorithms/basic/mke.py`)
-/

namespace NiaPy.MKE
open NiaPy
variable [Arith] {D N : ℕ}

/-- Parameters (mke.py:106-150). -/
structure Par where
  fluct : Fl
  rate : Fl
  c : Fl
  fc : Fl

/-- `MkeSolution` (mke.py:16-55). -/
structure Ind (D : ℕ) where
  x : Vec D
  f : Fl
  pb : Vec D
  pbf : Fl
  king : Bool

/-- `update_personal_best` (mke.py:52-55). -/
def Ind.updateBest (p : Ind D) : Ind D := if p.f < p.pbf then { p with pb := p.x, pbf := p.f } else p

/-- `int(population_rate * len(population))` (mke.py:269, 292), for a rate that is not negative. -/
def Par.kings (p : Par) (N : ℕ) : ℕ := floorNat (p.rate * Fl.ofNat N)

/-- `for i in rng.choice(...): pop[i].monkey_king = True` (mke.py:269-270, 292-293); raises `ValueError` if there are more kings
than individuals. -/
def crown (p : Par) (pop : Fin N → Ind D) : Prog (Vec D) (Fin N → Ind D) := do
  let idx ← choiceFin N (p.kings N)
  return fun i => if ∃ j, idx j = i then { pop i with king := true } else pop i

/-- `init_population` (mke.py:255-271). -/
def init (opt : OptType) (B : Box D) (N : ℕ) (p : Par) : Prog (Vec D) (Fin N → Ind D) := do
  let r ← defaultIndividualInit opt B N
  crown p fun i => ⟨(r i).x, (r i).f, (r i).x, (r i).f, false⟩

/-- `move_particle` with `move_p` (mke.py:171-189, 209-219). -/
def moveParticle (p : Par) (e : Ind D) (xb : Vec D) : Prog (Vec D) (Vec D × Fl) := do
  let r ← randVec D
  let y ← Prog.repair fun j => e.pb j + p.fluct * r j * (xb j - e.x j)
  let v ← Prog.eval y
  return (y, v)

/-- `MonkeyKingEvolutionV1.move_monkey_king_particle` with `move_mk` (mke.py:191-207, 221-233); `n = int(c * D)`; without
trials `np.apply_along_axis` raises `ValueError`. -/
def kingV1 (p : Par) (n : ℕ) (e : Ind D) : Prog (Vec D) (Vec D × Fl) := do
  let r ← tabM n fun _ => randVec D
  let a ← repairRows fun i j => e.x j + p.fc * r i j * e.x j
  let af ← evalRows a
  let ib ← argminIdx af
  return (a ib, af ib)

/-- A trial of `MonkeyKingEvolutionV2.move_monkey_king_particle` (mke.py:372-376). -/
def trialV2 (p : Par) (pop : Fin N → Ind D) (e : Ind D) (b : Vec D × Fl) : Prog (Vec D) (Vec D × Fl) := do
  let r ← choiceFin N 2
  let a ← Prog.repair fun j => e.x j - p.fc * ((pop (r 0)).x j - (pop (r 1)).x j)
  let v ← Prog.eval a
  return betterLt a v b.1 b.2

/-- `MonkeyKingEvolutionV2.move_monkey_king_particle` (mke.py:343-377); `n = int(c * N)`. -/
def kingV2 (p : Par) (n : ℕ) (pop : Fin N → Ind D) (e : Ind D) : Prog (Vec D) (Vec D × Fl) :=
  forFin n (fun _ => trialV2 p pop e) (e.x, e.f)

/-- Number of trials of a king. -/
def Par.trials (p : Par) (v2 : Bool) (D N : ℕ) : ℕ := floorNat (p.c * Fl.ofNat (if v2 then N else D))

/-- The move of one individual (mke.py:247-251, 391-395). -/
def moveOne (p : Par) (v2 : Bool) (xb : Vec D) (pop : Fin N → Ind D) (e : Ind D) : Prog (Vec D) (Vec D × Fl) :=
  if e.king then (if v2 then kingV2 p (p.trials v2 D N) pop e else kingV1 p (p.trials v2 D N) e) else moveParticle p e xb

/-- Body of the loop of `move_population` (mke.py:235-253, 379-397). -/
def step (p : Par) (v2 : Bool) (xb : Vec D) (i : Fin N) (pop : Fin N → Ind D) : Prog (Vec D) (Fin N → Ind D) := do
  let r ← moveOne p v2 xb pop (pop i)
  return Function.update pop i (Ind.updateBest { pop i with x := r.1, f := r.2, king := false })

/-- `run_iteration` (mke.py:273-296). -/
def iter (p : Par) (v2 : Bool) (pop : Fin N → Ind D) (xb : Vec D) (fxb : Fl) : Prog (Vec D) ((Fin N → Ind D) × Vec D × Fl) := do
  let pop ← forFin N (step p v2 xb) pop
  let pop ← crown p pop
  let b ← Prog.getBest (List.ofFn fun i => (pop i).x) (List.ofFn fun i => (pop i).f) xb fxb
  return (pop, b)

/-- `MonkeyKingEvolutionV1` (mke.py:58-296) and `MonkeyKingEvolutionV2` (mke.py:299-397). -/
def alg (opt : OptType) (B : Box D) (N : ℕ) (p : Par) (v2 : Bool) : Alg (Vec D) where
  σ := Fin N → Ind D
  init := init opt B N p
  pop s := List.ofFn fun i => (s i).x
  fit s := List.ofFn fun i => (s i).f
  iter := iter p v2

variable {C : Ctx (Vec D)} {g : Ghost (Vec D)}

@[simp] theorem updateBest_x (e : Ind D) : e.updateBest.x = e.x := by unfold Ind.updateBest; split <;> rfl
@[simp] theorem updateBest_f (e : Ind D) : e.updateBest.f = e.f := by unfold Ind.updateBest; split <;> rfl
@[simp] theorem updateBest_king (e : Ind D) : e.updateBest.king = e.king := by unfold Ind.updateBest; split <;> rfl

/-- The number of kings. -/
def numKings (pop : Fin N → Ind D) : ℕ := (Finset.univ.filter fun i => (pop i).king = true).card

/-- What the coronation does. -/
theorem crown_yields (p : Par) (pop : Fin N → Ind D) (h : ∀ i, (pop i).king = false) : Yields C (crown p pop) fun r =>
    (∀ i, (r i).x = (pop i).x ∧ (r i).f = (pop i).f) ∧ numKings r = p.kings N := by
  unfold crown
  refine Yields.bind' Yields.choiceFin fun idx hidx => .pure' ⟨fun i => ?_, ?_⟩
  · simp only
    split <;> exact ⟨rfl, rfl⟩
  · have : (Finset.univ.filter fun i => (if ∃ j, idx j = i then { pop i with king := true } else pop i).king = true) =
        Finset.univ.image idx := by
      ext i
      simp only [Finset.mem_filter, Finset.mem_univ, true_and, Finset.mem_image]
      split
      · rename_i hi; simpa using hi
      · rename_i hi; simpa [h i] using hi
    rw [numKings, this, Finset.card_image_of_injective _ hidx]
    simp

/-- What a move does: one evaluated point is kept, which is as good as the others that were evaluated. -/
def Moves (C : Ctx (Vec D)) (m : Prog (Vec D) (Vec D × Fl)) (n : ℕ) (e : Ind D) : Prop := ∀ g S, Cov C S g → C.Fit g.b e.x e.f →
  m.wp C (fun r g' => C.Fit g'.b r.1 r.2 ∧ Cov C (fun u => S u ∨ u = r.2) g' ∧ g'.c = g.c + n) g

theorem moveParticle_moves (p : Par) (e : Ind D) (xb : Vec D) : Moves C (moveParticle p e xb) 1 e := by
  intro g S hS _
  simp only [moveParticle, Prog.wp_bind']
  refine Yields.randVec.quiet.wp fun r _ => Yields.repair.wp fun y hy => ?_
  rw [Prog.wp_eval]
  exact ⟨hy, fun v hv => ⟨.new hv, (hS.eval v).mono fun u hu => hu.symm, rfl⟩⟩

theorem kingV1_moves (p : Par) (n : ℕ) (e : Ind D) : Moves C (kingV1 p n e) n e := by
  intro g S hS _
  simp only [kingV1, Prog.wp_bind']
  refine Yields.wp (P := fun _ => True) (Yields.tabMT fun _ => Yields.randVec.quiet) fun r _ => ?_
  refine (Yields.repairRows (Or.inl rfl)).wp fun a ha => ?_
  refine wp_evalRows ha hS fun af g1 _ hb1 hf1 hc1 hn1 => ?_
  refine wp_argminIdx fun ib hmin => ⟨hf1 ib, hc1.weaken fun hn u hu hne => ?_, hn1⟩
  rcases hu with hu | ⟨i, rfl⟩
  · exact ⟨u, Or.inl hu, Fl.le_refl hne⟩
  · exact ⟨_, Or.inr rfl, hmin (fun j => hn _ _ (hf1 j).1) i⟩

theorem kingV2_moves (p : Par) (n : ℕ) (pop : Fin N → Ind D) (e : Ind D) : Moves C (kingV2 p n pop e) n e := by
  intro g S hS he
  refine Prog.wp_mono (fun r g' h => h) (wp_forFin (fun k (r : Vec D × Fl) g' => C.Fit g'.b r.1 r.2 ∧ Cov C (fun u => S u ∨ u = r.2) g' ∧ g'.c = g.c + k)
    ⟨he, hS.mono fun u hu => Or.inl hu, rfl⟩ ?_)
  rintro i ⟨x, f⟩ g1 ⟨h1, h2, h3⟩
  simp only [trialV2, Prog.wp_bind']
  refine Yields.choiceFin.quiet.wp fun r _ => Yields.repair.wp fun y hy => ?_
  rw [Prog.wp_eval]
  refine ⟨hy, fun v hv => ?_⟩
  simp only at h1 h2
  have hv' : C.Fit (g1.eval v).b y v := .new hv
  have h1' := h1.eval v
  have hcov := h2.eval v
  refine ⟨?_, hcov.weaken fun hn u hu hne => ?_, by simp [Ghost.eval, h3, add_assoc]⟩
  · unfold betterLt; split
    · exact hv'
    · exact h1'
  · unfold betterLt
    split
    · rename_i hlt
      rcases hu with rfl | hu | rfl
      · exact ⟨_, Or.inr rfl, Fl.le_refl hne⟩
      · exact ⟨_, Or.inl hu, Fl.le_refl hne⟩
      · exact ⟨_, Or.inr rfl, Fl.le_of_lt hlt⟩
    · rename_i hlt
      rcases hu with rfl | hu | rfl
      · exact ⟨_, Or.inr rfl, Fl.le_of_not_lt (hn _ _ hv) (hn _ _ h1.1) hlt⟩
      · exact ⟨_, Or.inl hu, Fl.le_refl hne⟩
      · exact ⟨_, Or.inr rfl, Fl.le_refl hne⟩

/-- Evaluations for one individual. -/
def cost (n : ℕ) (e : Ind D) : ℕ := if e.king then n else 1

theorem sum_cost (n : ℕ) (pop : Fin N → Ind D) : ∑ i, cost n (pop i) = numKings pop * n + (N - numKings pop) := by
  unfold cost numKings
  rw [Finset.sum_ite, Finset.sum_const, Finset.sum_const, Finset.filter_not, Finset.card_sdiff_of_subset (Finset.filter_subset _ _)]
  simp

theorem sum_lt_succ (f : Fin N → ℕ) (i : Fin N) :
    ∑ j : Fin N, (if (j : ℕ) < (i : ℕ) + 1 then f j else 0) = ∑ j : Fin N, (if (j : ℕ) < i then f j else 0) + f i := by
  have : ∀ j : Fin N, (if (j : ℕ) < (i : ℕ) + 1 then f j else 0) = (if (j : ℕ) < i then f j else 0) + if j = i then f i else 0 := by
    intro j
    by_cases h : j = i
    · subst h; simp
    · have h' : (j : ℕ) ≠ i := fun h' => h (Fin.ext h')
      rw [if_neg h]
      by_cases hl : (j : ℕ) < i
      · rw [if_pos hl, if_pos (by omega)]; rfl
      · rw [if_neg hl, if_neg (by omega)]
  rw [Finset.sum_congr rfl fun j _ => this j, Finset.sum_add_distrib]
  simp

/-- What moving the population does. -/
theorem wp_movePop (p : Par) (v2 : Bool) (xb : Vec D) (pop : Fin N → Ind D) {S : Fl → Prop} (hS : Cov C S g)
    (hI : ∀ i, C.Fit g.b (pop i).x (pop i).f) {Q : (Fin N → Ind D) → Ghost (Vec D) → Prop}
    (hQ : ∀ r g', (∀ i, C.Fit g'.b (r i).x (r i).f) → (∀ i, (r i).king = false) → Cov C (fun u => S u ∨ ∃ i, u = (r i).f) g' →
      Below g'.b g.b → g'.c = g.c + (numKings pop * p.trials v2 D N + (N - numKings pop)) → Q r g') :
    (forFin N (step p v2 xb) pop).wp C Q g := by
  refine Prog.wp_mono (fun r g' h => ?_) (Prog.wp_below (wp_forFin (fun k (r : Fin N → Ind D) g' => (∀ i, C.Fit g'.b (r i).x (r i).f) ∧
    (∀ i : Fin N, (i : ℕ) < k → (r i).king = false) ∧ (∀ i : Fin N, k ≤ i → r i = pop i) ∧
    Cov C (fun u => S u ∨ ∃ i : Fin N, (i : ℕ) < k ∧ u = (r i).f) g' ∧
    g'.c = g.c + ∑ j : Fin N, if (j : ℕ) < k then cost (p.trials v2 D N) (pop j) else 0) ⟨hI, by simp, fun _ _ => rfl,
      hS.mono fun u hu => Or.inl hu, by simp⟩ ?_))
  · obtain ⟨⟨h1, h2, -, h3, h4⟩, hb⟩ := h
    refine hQ r g' h1 (fun i => h2 i i.2) (h3.mono fun u hu => hu.imp_right fun ⟨i, _, hu⟩ => ⟨i, hu⟩) hb ?_
    rw [h4, ← sum_cost]
    simp
  · rintro i r g1 ⟨h1, h2, h3, h4, h5⟩
    have hm : Moves C (moveOne p v2 xb r (r i)) (cost (p.trials v2 D N) (pop i)) (r i) := by
      rw [h3 i le_rfl, cost, moveOne]
      by_cases hk : (pop i).king = true
      · rw [if_pos hk, if_pos hk]
        cases v2
        · exact kingV1_moves p _ _
        · exact kingV2_moves p _ _ _
      · rw [if_neg hk, if_neg hk]
        exact moveParticle_moves p _ _
    simp only [step, Prog.wp_bind']
    refine Prog.wp_mono (fun y g2 hy => ?_) (Prog.wp_below (hm g1 _ h4 (h1 i)))
    obtain ⟨⟨y1, y2, y3⟩, hb⟩ := hy
    refine ⟨fun j => ?_, fun j hj => ?_, fun j hj => ?_, y2.mono fun u hu => ?_, ?_⟩
    · by_cases hj : j = i
      · subst hj; simpa using y1
      · rw [Function.update_of_ne hj]; exact (h1 j).mono hb
    · by_cases hji : j = i
      · subst hji; simp
      · rw [Function.update_of_ne hji]
        exact h2 j (by have : (j : ℕ) ≠ i := fun h => hji (Fin.ext h); omega)
    · have hji : j ≠ i := fun h => by subst h; omega
      rw [Function.update_of_ne hji]
      exact h3 j (by omega)
    · rcases hu with (hu | ⟨j, hj, rfl⟩) | rfl
      · exact Or.inl hu
      · refine Or.inr ⟨j, by omega, ?_⟩
        rw [Function.update_of_ne fun h => by subst h; omega]
      · exact Or.inr ⟨i, by omega, by simp⟩
    · rw [y3, h5, sum_lt_succ, add_assoc]

/-- What one iteration does. -/
theorem wp_iter (p : Par) (v2 : Bool) (pop : Fin N → Ind D) (xb : Vec D) (fxb : Fl)
    (hI : ∀ i, C.Fit g.b (pop i).x (pop i).f) (hinc : Inc C xb fxb g) :
    (iter p v2 pop xb fxb).wp C (fun r g' => (∀ i, C.Fit g'.b (r.1 i).x (r.1 i).f) ∧ numKings r.1 = p.kings N ∧
      Inc C r.2.1 r.2.2 g' ∧ g'.c = g.c + (numKings pop * p.trials v2 D N + (N - numKings pop))) g := by
  simp only [iter, Prog.wp_bind']
  refine wp_movePop p v2 xb pop hinc.cov hI fun r g1 h1 h2 h3 hb h4 => ?_
  refine (crown_yields p r h2).wp fun r' hr' => ?_
  have h1' : ∀ i, C.Fit g1.b (r' i).x (r' i).f := fun i => by rw [(hr'.1 i).1, (hr'.1 i).2]; exact h1 i
  exact wp_getBest_arr (pop := fun i => (r' i).x) (fit := fun i => (r' i).f) h1' (hinc.toFit.mono hb)
    (h3.mono fun u hu => hu.imp_right fun ⟨i, hu⟩ => ⟨i, by rw [hu, (hr'.1 i).2]⟩) fun b hb => ⟨h1', hr'.2, hb, h4⟩

/-- The obligations of the first two versions of monkey king evolution: `N` evaluations in the beginning; per iteration `int(c * D)`
(version 2: `int(c * N)`) for each of the `int(rate * N)` kings and one for each other individual. -/
theorem verified (opt : OptType) (B : Box D) (N : ℕ) (p : Par) (v2 : Bool) : Verified (alg opt B N p v2) (fun _ => False) true true
    (.exact N (p.kings N * p.trials v2 D N + (N - p.kings N))) := by
  refine ⟨fun C s b => (∀ i, C.Fit b (s i).x (s i).f) ∧ numKings s = p.kings N, fun C hG hent _ =>
    ⟨fun s b h => forall₂_ofFn h.1, fun g hg => ?_, ?_⟩⟩
  · simp only [alg, init, Prog.wp_bind']
    refine wp_initInd hg fun r g' _ h3 h4 h5 => ?_
    refine (crown_yields p (fun i => ⟨(r i).x, (r i).f, (r i).x, (r i).f, false⟩) fun _ => rfl).wp fun r' hr' => ⟨⟨fun i => ?_, hr'.2⟩, ?_, ?_⟩
    · rw [(hr'.1 i).1, (hr'.1 i).2]; exact h3 i
    · exact h4.mono fun u hu => by
        obtain ⟨i, rfl⟩ := mem_ofFn_iff.1 hu
        exact mem_ofFn_iff.2 ⟨i, (hr'.1 i).2.symm⟩
    · exact h5
  · intro s xb fxb g hI hF hc
    exact Prog.wp_mono (fun r g' h => ⟨⟨h.1, h.2.1⟩, h.2.2.1.fit, h.2.2.1.eq, Cost.ok_exact (by rw [h.2.2.2, hI.2])⟩)
      (wp_iter p v2 s xb fxb hI.1 ⟨hF, hc⟩)

/-! ### Version 3 -/

/-- State of a run (mke.py:474-495). -/
structure St3 (D N : ℕ) where
  pop : Fin N → Vec D
  fit : Fin N → Fl

/-- `init_population` (mke.py:474-495). -/
def init3 (B : Box D) (N : ℕ) : Prog (Vec D) (St3 D N) := do
  let (pop, fit) ← defaultNumpyInit B N
  return ⟨pop, fit⟩

/-- Row `i` of `m` before it is shuffled (mke.py:525-527): in blocks of `D` rows, the lower triangle is 1. -/
def mask (i : ℕ) : Fin D → Bool := fun j => decide ((j : ℕ) ≤ i % D)

/-- The rows of `m * population + neg(m) * best_x` (mke.py:528-530); the products with 0 and 1 are computed. -/
def mixRows (pop : Fin N → Vec D) (xb : Vec D) : Prog (Vec D) (Fin N → Vec D) := tabM N fun i => do
  let sh ← permIdx D
  return fun j => (if mask (D := D) i (sh j) then 1 else 0) * pop i j + (if mask (D := D) i (sh j) then 0 else 1) * xb j

/-- Replacing the worst individual by the best of the new points (mke.py:533-535). -/
def replaceWorst (s : St3 D N) (iw : Fin N) (y : Vec D) (v : Fl) : St3 D N :=
  if v ≤ s.fit iw then ⟨Function.update s.pop iw y, Function.update s.fit iw v⟩ else s

/-- `run_iteration` (mke.py:497-536) with `n = ceil(c * D)` points around the best solution. -/
def iter3 (fc : Fl) (n : ℕ) (s : St3 D N) (xb : Vec D) (fxb : Fl) : Prog (Vec D) (St3 D N × Vec D × Fl) := do
  let r ← choiceRep N n
  let r' ← choiceRep N n
  let gb ← repairRows fun i j => xb j + fc * s.pop (r i) j - s.pop (r' i) j
  let gf ← evalRows gb
  let (xb, fxb) ← Prog.getBest (List.ofFn gb) (List.ofFn gf) xb fxb
  let pop ← mixRows s.pop xb
  let pop ← repairRows pop
  let fit ← evalRows pop
  let (xb, fxb) ← Prog.getBest (List.ofFn pop) (List.ofFn fit) xb fxb
  let iw ← argmaxIdx fit
  let ib ← argminIdx gf
  return (replaceWorst ⟨pop, fit⟩ iw (gb ib) (gf ib), xb, fxb)

/-- `MonkeyKingEvolutionV3` (mke.py:400-536); `n = ceil(c * D)`. -/
def alg3 (B : Box D) (N : ℕ) (fc : Fl) (n : ℕ) : Alg (Vec D) where
  σ := St3 D N
  init := init3 B N
  pop s := List.ofFn s.pop
  fit s := List.ofFn s.fit
  iter := iter3 fc n

theorem mixRows_quiet (pop : Fin N → Vec D) (xb : Vec D) : Quiet C (mixRows pop xb) := by
  unfold mixRows
  exact Yields.tabMT fun i => Yields.bindT Yields.permIdx.quiet fun _ => .pure' trivial

/-- The obligations of the third version: `N` evaluations in the beginning, `ceil(c * D) + N` per iteration. -/
theorem verified3 (B : Box D) (N : ℕ) (fc : Fl) (n : ℕ) : Verified (alg3 B N fc n) B.Mem true true (.exact N (n + N)) := by
  refine ⟨fun C s b => ∀ i, C.Fit b (s.pop i) (s.fit i), fun C hG hent _ => ⟨fun s b h => forall₂_ofFn h, fun g hg => ?_, ?_⟩⟩
  · simp only [alg3, init3, Prog.wp_bind']
    exact wp_initArr hG hg fun r g' _ _ h3 h4 h5 => ⟨h3, h4, h5⟩
  · intro s xb fxb g hI hF hc
    have hinc : Inc C xb fxb g := ⟨hF, hc⟩
    simp only [alg3, iter3, Prog.wp_bind']
    refine Yields.choiceRep.wp fun r _ => Yields.choiceRep.wp fun r' _ => (Yields.repairRows (Or.inl rfl)).wp fun gb hgb => ?_
    refine wp_evalRows hgb hinc.cov fun gf g1 _ hb1 hf1 hc1 hn1 => ?_
    refine wp_getBest_arr hf1 (hinc.toFit.mono hb1) hc1 fun b1 hi1 => ?_
    refine (mixRows_quiet ..).wp fun pop0 _ => (Yields.repairRows (Or.inl rfl)).wp fun pop hpop => ?_
    refine wp_evalRows hpop hi1.cov fun fit g2 _ hb2 hf2 hc2 hn2 => ?_
    refine wp_getBest_arr hf2 (hi1.toFit.mono hb2) hc2 fun b2 hi2 => ?_
    refine wp_argmaxIdx fun iw _ => wp_argminIdx fun ib _ => ⟨?_, hi2.fit, hi2.eq, Cost.ok_exact (by omega)⟩
    simp only [replaceWorst]
    split
    · exact aligned_update hf2 iw ((hf1 ib).mono hb2)
    · exact hf2

end NiaPy.MKE
