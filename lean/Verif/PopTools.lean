import Verif.AlgTools

/-!
# Tools for populations

Evaluating a whole population, picking its best member, and index samples.
-/

namespace NiaPy
variable {X α β : Type} {C : Ctx X} {g : Ghost X}

/-! ### Index samples -/

/-- `rng.choice(n, k, replace=False)`: `k` different indices below `n`; raises `ValueError` for `k > n`. -/
def choiceFin (n k : ℕ) : Prog X (Fin k → Fin n) :=
  if h : k ≤ n then do
    let p ← permIdx n
    return fun i => p (Fin.castLE h i)
  else .throw .valueError

theorem Yields.choiceFin {n k : ℕ} : Yields C (NiaPy.choiceFin n k : Prog X (Fin k → Fin n)) Function.Injective := by
  unfold NiaPy.choiceFin
  split
  · refine Yields.bind' Yields.permIdx fun p hp => .pure' fun i j hij => ?_
    have := hp.1 hij
    simpa [Fin.ext_iff] using this
  · exact .throw nofun

/-- `rng.choice(n, k)` (with replacement); raises `ValueError` for `n = 0` (if `k > 0`). -/
def choiceRep (n k : ℕ) : Prog X (Fin k → Fin n) := tabM k fun _ => intFin n

theorem Yields.choiceRep {n k : ℕ} : Quiet C (NiaPy.choiceRep n k : Prog X (Fin k → Fin n)) := Yields.tabMT fun _ => Yields.intFin

/-- `rng.choice(n, k, replace=False, p=p)` where `p` is 0 for `ic` and the same for all others: `k` different indices,
none of them `ic`; raises `ValueError` if there are not enough. -/
def choiceOther (n k : ℕ) (ic : Fin n) : Prog X (Fin k → Fin n) := do
  let p ← permIdx n
  let l := ((List.finRange n).map p).filter (· ≠ ic)
  if h : k ≤ l.length then return fun i => l.get (Fin.castLE h i)
  else .throw .valueError

theorem Yields.choiceOther {n k : ℕ} {ic : Fin n} : Yields C (NiaPy.choiceOther n k ic : Prog X (Fin k → Fin n))
    fun r => Function.Injective r ∧ ∀ i, r i ≠ ic := by
  unfold NiaPy.choiceOther
  refine Yields.bind' Yields.permIdx fun p hp => ?_
  simp only
  split
  · rename_i h
    refine .pure' ⟨fun i j hij => ?_, fun i => ?_⟩
    · have hnd : (((List.finRange n).map p).filter (· ≠ ic)).Nodup :=
        (List.Nodup.map hp.1 (List.nodup_finRange n)).filter _
      have := (List.nodup_iff_injective_get.1 hnd) hij
      simpa [Fin.ext_iff] using this
    · have := List.get_mem (((List.finRange n).map p).filter (· ≠ ic)) (Fin.castLE h i)
      rw [List.mem_filter] at this
      simpa using this.2
  · exact .throw nofun

/-- `np.pi`, as NumPy prints it. -/
def piF : Fl := lit 3141592653589793 1000000000000000

/-- `levy_flight(rng, size=D)` (util/random.py:8-25); `sigma` is the constant computed there from `beta = 1.5`. -/
def levySigma [Arith] : Fl :=
  Arith.pow (Arith.fn .gamma (1 + lit 3 2) * Arith.fn .sin (piF * lit 3 2 / Fl.ofNat 2) /
    (Arith.fn .gamma ((1 + lit 3 2) / Fl.ofNat 2) * lit 3 2 * Arith.pow (Fl.ofNat 2) ((lit 3 2 - 1) / Fl.ofNat 2)))
    (1 / lit 3 2)

/-- `levy_flight(rng, alpha, beta, size=D)` (util/random.py:8-25) with `beta = 1.5`. -/
def levyVec [Arith] (D : ℕ) (alpha : Fl := lit 1 100) : Prog X (Vec D) := do
  let u ← normVec D 0 levySigma
  let v ← normVec D 0 1
  return fun j => alpha * u j / Arith.pow (Fl.abs (v j)) (1 / lit 3 2)

theorem Yields.levyVec [Arith] {D : ℕ} {a : Fl} : Quiet C (NiaPy.levyVec D a : Prog X (Vec D)) := by
  unfold NiaPy.levyVec
  yields

macro_rules | `(tactic| yields_step) => `(tactic| exact Yields.choiceFin.quiet)
macro_rules | `(tactic| yields_step) => `(tactic| exact Yields.choiceRep)
macro_rules | `(tactic| yields_step) => `(tactic| exact Yields.choiceOther.quiet)
macro_rules | `(tactic| yields_step) => `(tactic| exact Yields.levyVec)

/-- `euclidean` (util/distances.py:6-17). -/
def euclid [Arith] {D : ℕ} (u v : Vec D) : Fl := norm2 fun j => u j - v j

/-- `task.max_iters` or `task.max_evals` as a float; without a limit it is `inf`. -/
def limF : Option ℕ → Fl
  | none => .pinf
  | some n => Fl.ofNat n

/-! Calculations without rounding. -/
namespace Exact
variable (fn : Fn → Fl → Fl) (a b : ℚ)

theorem add_fin : letI := exactArith fn; (Fl.fin a + Fl.fin b : Fl) = .fin (a + b) := rfl
theorem sub_fin : letI := exactArith fn; (Fl.fin a - Fl.fin b : Fl) = .fin (a - b) := congrArg Fl.fin (sub_eq_add_neg a b).symm
theorem mul_fin : letI := exactArith fn; (Fl.fin a * Fl.fin b : Fl) = .fin (a * b) := rfl
theorem div_fin (hb : b ≠ 0) : letI := exactArith fn; (Fl.fin a / Fl.fin b : Fl) = .fin (a / b) := by
  show Fl.divX _ _ = _
  simp [Fl.divX, hb]
theorem div_none : letI := exactArith fn; (Fl.fin a / limF none : Fl) = .fin 0 := rfl
theorem div_some {T : ℕ} (hT : 0 < T) : letI := exactArith fn; (Fl.fin a / limF (some T) : Fl) = .fin (a / T) :=
  div_fin fn a T (by exact_mod_cast hT.ne')
theorem one_fin : (1 : Fl) = .fin 1 := congrArg Fl.fin Nat.cast_one
theorem ofNat_fin (n : ℕ) : Fl.ofNat n = .fin n := rfl

end Exact

/-! ### Sorting -/

/-- `l[np.argsort([val(a) for a in l])]` -/
def sortRecs (val : α → Fl) (l : List α) : Prog X (List α) := do
  let ei ← Prog.argsort (l.map val)
  return ei.filterMap (l[·]?)

theorem Yields.sortRecs {val : α → Fl} {l : List α} : Yields C (NiaPy.sortRecs val l : Prog X (List α)) fun r =>
    r.Perm l ∧ r.Pairwise fun a b => leNanLast (val a) (val b) := by
  refine Yields.bind' Yields.argsort fun ei he => .pure' ⟨?_, ?_⟩
  · have := he.1.filterMap (l[·]?)
    rwa [List.length_map, filterMap_range] at this
  · rw [List.pairwise_filterMap]
    refine he.2.imp fun {i j} hij a ha b hb => ?_
    simpa [List.getD_eq_getElem?_getD, Option.mem_def.1 ha, Option.mem_def.1 hb] using hij

macro_rules | `(tactic| yields_step) => `(tactic| exact Yields.sortRecs.quiet)

/-- Of a sorted list, the first element is enough. -/
theorem Cov.sorted {val : α → Fl} {l r : List α} {S : Fl → Prop} (hc : Cov C (fun u => S u ∨ ∃ e ∈ l, u = val e) g)
    (hp : r.Perm l) (hs : r.Pairwise fun a b => leNanLast (val a) (val b)) (hnn : C.NN → ∀ e ∈ l, val e ≠ .nan) {k : ℕ} (hk : 0 < k) :
    Cov C (fun u => S u ∨ ∃ e ∈ r.take k, u = val e) g :=
  hc.weaken fun hn u hu hne => by
    rcases hu with hu | ⟨e, he, rfl⟩
    · exact ⟨u, Or.inl hu, Fl.le_refl hne⟩
    · have he' := hp.mem_iff.2 he
      cases r with
      | nil => simp at he'
      | cons a r =>
        obtain ⟨k, rfl⟩ := Nat.exists_eq_succ_of_ne_zero (by omega : k ≠ 0)
        refine ⟨val a, Or.inr ⟨a, by simp, rfl⟩, ?_⟩
        rcases List.mem_cons.1 he' with rfl | he'
        · exact Fl.le_refl (hnn hn _ he)
        · rcases (List.pairwise_cons.1 hs).1 e he' with h | h
          · exact absurd h (hnn hn _ he)
          · exact h

/-! ### Evaluating a population -/

/-- Rule for a list of programs each of which evaluates a point (possibly several) and keeps it. -/
theorem wp_mapM_cov {l : List β} {f : β → Prog X α} (pt : α → X) (val : α → Fl) (P : α → Prop) (d : ℕ)
    {S : Fl → Prop} (h0 : Cov C S g)
    (hstep : ∀ b ∈ l, ∀ g S, Cov C S g →
      (f b).wp C (fun a g' => Cov C (fun u => S u ∨ u = val a) g' ∧ C.Fit g'.b (pt a) (val a) ∧ P a ∧ g'.c = g.c + d) g) :
    (mapM' l f).wp C (fun r g' => Cov C (fun u => S u ∨ ∃ a ∈ r, u = val a) g' ∧
      (∀ a ∈ r, C.Fit g'.b (pt a) (val a)) ∧ (∀ a ∈ r, P a) ∧ r.length = l.length ∧ g'.c = g.c + l.length * d) g := by
  induction l generalizing g S with
  | nil => exact ⟨h0.mono fun u hu => Or.inl hu, nofun, nofun, rfl, by simp⟩
  | cons b bs ih =>
    rw [mapM', Prog.wp_bind]
    refine Prog.wp_mono (fun a g' ha => ?_) (hstep b (by simp) g S h0)
    rw [Prog.wp_bind]
    refine Prog.wp_mono (fun r g'' hr => ?_) (Prog.wp_below (ih ha.1 fun b hb => hstep b (by simp [hb])))
    obtain ⟨⟨h1, h2, h3, h4, h5⟩, hb⟩ := hr
    refine ⟨h1.mono fun u hu => ?_, ?_, ?_, by simp [h4], by rw [h5, ha.2.2.2, List.length_cons, Nat.add_mul]; omega⟩
    · rcases hu with (hu | rfl) | ⟨a', ha', rfl⟩
      · exact Or.inl hu
      · exact Or.inr ⟨a, by simp, rfl⟩
      · exact Or.inr ⟨a', by simp [ha'], rfl⟩
    · intro a' ha'
      rcases List.mem_cons.1 ha' with rfl | ha'
      · exact ha.2.1.mono hb
      · exact h2 a' ha'
    · intro a' ha'
      rcases List.mem_cons.1 ha' with rfl | ha'
      · exact ha.2.2.1
      · exact h3 a' ha'

/-- `np.apply_along_axis(task.eval, 1, pop)`; raises `ValueError` for an empty population. -/
def evalRows {n : ℕ} (pop : Fin n → X) : Prog X (Fin n → Fl) :=
  if n = 0 then .throw .valueError else tabM n fun i => Prog.eval (pop i)

theorem wp_evalRows {n : ℕ} {pop : Fin n → X} {S : Fl → Prop} (hG : ∀ i, C.G (pop i)) (h0 : Cov C S g)
    {Q : (Fin n → Fl) → Ghost X → Prop}
    (hQ : ∀ r g', 0 < n → Below g'.b g.b → (∀ i, C.Fit g'.b (pop i) (r i)) → Cov C (fun u => S u ∨ ∃ i, u = r i) g' →
      g'.c = g.c + n → Q r g') : (evalRows pop).wp C Q g := by
  unfold evalRows
  split
  · exact nofun
  · exact Prog.wp_mono (fun r g' h => hQ r g' (by omega) h.2 h.1.2.1 h.1.1 h.1.2.2) (Prog.wp_below (wp_evalAll hG h0))

/-- For every `i` in turn: compute a point and evaluate it. -/
def moveEval {n : ℕ} (m : Fin n → Prog X X) : Prog X (Fin n → X × Fl) := tabM n fun i => do
  let y ← m i
  let f ← Prog.eval y
  return (y, f)

theorem wp_moveEval {n : ℕ} {m : Fin n → Prog X X} {S : Fl → Prop} (hm : ∀ i, Yields C (m i) C.G) (h0 : Cov C S g)
    {Q : (Fin n → X × Fl) → Ghost X → Prop}
    (hQ : ∀ r g', Below g'.b g.b → (∀ i, C.Fit g'.b (r i).1 (r i).2) → Cov C (fun u => S u ∨ ∃ i, u = (r i).2) g' →
      g'.c = g.c + n → Q r g') : (moveEval m).wp C Q g := by
  refine Prog.wp_mono (fun r g' h => hQ r g' h.2 h.1.2.1 h.1.1 (by simpa using h.1.2.2.2))
    (Prog.wp_below (wp_tabM_cov (fun _ a => a.1) (fun _ a => a.2) (fun _ _ => True) 1 h0 fun i g S hS => ?_))
  simp only [Prog.wp_bind']
  refine (hm i).wp fun y hy => ?_
  rw [Prog.wp_eval]
  exact ⟨hy, fun v hv => ⟨(hS.eval v).mono fun u hu => hu.symm, .new hv, trivial, rfl⟩⟩

/-- The same for a list of points, which are returned with their fitness. -/
def evalRecs (l : List X) : Prog X (List (X × Fl)) :=
  if l.isEmpty then .throw .valueError else mapM' l fun x => do
    let v ← Prog.eval x
    return (x, v)

theorem wp_evalRecs {l : List X} {S : Fl → Prop} (hG : ∀ x ∈ l, C.G x) (h0 : Cov C S g) {Q : List (X × Fl) → Ghost X → Prop}
    (hQ : ∀ r g', 0 < l.length → Below g'.b g.b → (∀ e ∈ r, C.Fit g'.b e.1 e.2) → Cov C (fun u => S u ∨ ∃ e ∈ r, u = e.2) g' →
      r.map (·.1) = l → g'.c = g.c + l.length → Q r g') : (evalRecs l).wp C Q g := by
  unfold evalRecs
  split
  · exact nofun
  · rename_i hne
    have hpos : 0 < l.length := List.length_pos_iff.2 fun h => by simp [h] at hne
    have h1 := wp_mapM_cov (C := C) (g := g) (l := l) (f := fun x => do let v ← Prog.eval x; return (x, v))
      (fun a : X × Fl => a.1) (fun a => a.2) (fun _ => True) 1 h0 fun b hb g S hS => by
        simp only [Prog.wp_bind', Prog.wp_eval]
        exact ⟨hG b hb, fun v hv => ⟨(hS.eval v).mono fun u hu => hu.symm, .new hv, trivial, rfl⟩⟩
    have h2 := wp_mapM' (C := C) (g := g) (l := l) (f := fun x => do let v ← Prog.eval x; return (x, v))
      (fun _ _ => True) (fun x (a : X × Fl) => a.1 = x) trivial fun b hb k g _ => by
        simp only [Prog.wp_bind', Prog.wp_eval]
        exact ⟨hG b hb, fun v hv => ⟨trivial, rfl⟩⟩
    refine Prog.wp_mono (fun r g' h => ?_) (Prog.wp_below (Prog.wp_and h1 h2))
    obtain ⟨⟨⟨e1, e2, _, e3, e4⟩, _, e5⟩, hb⟩ := h
    refine hQ r g' hpos hb e2 e1 ?_ (by simpa using e4)
    clear * - e5
    induction e5 with
    | nil => rfl
    | cons h _ ih => simp [h, ih]

/-- The same for a list of things with a point each; raises `ValueError` for an empty list. -/
def evalKeep (pt : β → X) (l : List β) : Prog X (List (β × Fl)) :=
  if l.isEmpty then .throw .valueError else mapM' l fun x => do
    let v ← Prog.eval (pt x)
    return (x, v)

theorem wp_evalKeep {pt : β → X} {l : List β} {S : Fl → Prop} (hG : ∀ x ∈ l, C.G (pt x)) (h0 : Cov C S g) {Q : List (β × Fl) → Ghost X → Prop}
    (hQ : ∀ r g', 0 < l.length → Below g'.b g.b → (∀ e ∈ r, C.Fit g'.b (pt e.1) e.2) → Cov C (fun u => S u ∨ ∃ e ∈ r, u = e.2) g' →
      r.map (·.1) = l → g'.c = g.c + l.length → Q r g') : (evalKeep pt l).wp C Q g := by
  unfold evalKeep
  split
  · exact nofun
  · rename_i hne
    have hpos : 0 < l.length := List.length_pos_iff.2 fun h => by simp [h] at hne
    have h1 := wp_mapM_cov (C := C) (g := g) (l := l) (f := fun x => do let v ← Prog.eval (pt x); return (x, v))
      (fun a : β × Fl => pt a.1) (fun a => a.2) (fun _ => True) 1 h0 fun b hb g S hS => by
        simp only [Prog.wp_bind', Prog.wp_eval]
        exact ⟨hG b hb, fun v hv => ⟨(hS.eval v).mono fun u hu => hu.symm, .new hv, trivial, rfl⟩⟩
    have h2 := wp_mapM' (C := C) (g := g) (l := l) (f := fun x => do let v ← Prog.eval (pt x); return (x, v))
      (fun _ _ => True) (fun x (a : β × Fl) => a.1 = x) trivial fun b hb k g _ => by
        simp only [Prog.wp_bind', Prog.wp_eval]
        exact ⟨hG b hb, fun v hv => ⟨trivial, rfl⟩⟩
    refine Prog.wp_mono (fun r g' h => ?_) (Prog.wp_below (Prog.wp_and h1 h2))
    obtain ⟨⟨⟨e1, e2, _, e3, e4⟩, _, e5⟩, hb⟩ := h
    refine hQ r g' hpos hb e2 e1 ?_ (by simpa using e4)
    clear * - e5
    induction e5 with
    | nil => rfl
    | cons h _ ih => simp [h, ih]

/-! ### The best member -/

/-- `pop[np.argmin(fit)]` for a list of records; raises `ValueError` for an empty list. -/
def argminRec (val : α → Fl) (l : List α) : Prog X α :=
  Prog.ofExcept (match argmin (l.map val) with
    | .error e => .error e
    | .ok i => match l[i]? with
      | none => .error .indexError
      | some a => .ok a)

theorem wp_argminRec {val : α → Fl} {l : List α} {Q : α → Ghost X → Prop}
    (hQ : ∀ a ∈ l, ((∀ e ∈ l, val e ≠ .nan) → ∀ e ∈ l, val a ≤ val e) → Q a g) : (argminRec val l : Prog X α).wp C Q g := by
  unfold argminRec
  rw [Prog.wp_ofExcept]
  cases hl : argmin (l.map val) with
  | error e =>
    refine ⟨nofun, fun h => ?_⟩
    cases h
    cases l <;> simp [argmin] at hl
  | ok i =>
    simp only
    cases hi : l[i]? with
    | none => exact ⟨nofun, nofun⟩
    | some a =>
      refine ⟨fun b hb => ?_, nofun⟩
      cases hb
      refine hQ a (List.mem_of_getElem? hi) fun hnn e he => ?_
      have hne : l.map val ≠ [] := by intro h; simp at h; simp [h] at he
      obtain ⟨k, v, hk, hv, hmin⟩ := argmin_spec (l.map val) hne (by simpa using hnn)
      rw [hl] at hk
      cases hk
      rw [List.getElem?_map, hi] at hv
      cases hv
      exact hmin.1 _ (List.mem_map_of_mem he)

/-- `np.argmin(fit)`, as an index; raises `ValueError` for an empty array. -/
def argminIdx {n : ℕ} (fit : Fin n → Fl) : Prog X (Fin n) := argminRec fit (List.finRange n)

/-- `np.argmax(fit)`, as an index; raises `ValueError` for an empty array. -/
def argmaxIdx {n : ℕ} (fit : Fin n → Fl) : Prog X (Fin n) := argminRec (fun i => -fit i) (List.finRange n)

theorem wp_argminIdx {n : ℕ} {fit : Fin n → Fl} {Q : Fin n → Ghost X → Prop}
    (h : ∀ i, ((∀ j, fit j ≠ .nan) → ∀ j, fit i ≤ fit j) → Q i g) : (argminIdx fit : Prog X (Fin n)).wp C Q g :=
  wp_argminRec fun i _ hmin => h i fun hn j => hmin (fun e _ => hn e) j (List.mem_finRange j)

/-- `np.argmax` picks an index whose fitness no other exceeds. -/
theorem wp_argmaxIdx {n : ℕ} {fit : Fin n → Fl} {Q : Fin n → Ghost X → Prop}
    (h : ∀ i, ((∀ j, fit j ≠ .nan) → ∀ j, fit j ≤ fit i) → Q i g) : (argmaxIdx fit : Prog X (Fin n)).wp C Q g := by
  refine wp_argminRec fun i _ hmin => h i fun hn j => ?_
  have := hmin (fun e _ he => hn e (by cases hf : fit e <;> simp_all)) j (List.mem_finRange j)
  exact (Fl.neg_le_neg _ _).1 this

theorem forall₂_map {R : X → Fl → Prop} {pt : α → X} {val : α → Fl} {l : List α} (h : ∀ e ∈ l, R (pt e) (val e)) :
    List.Forall₂ R (l.map pt) (l.map val) := by
  induction l with
  | nil => exact .nil
  | cons c cs ih => exact .cons (h c (by simp)) (ih fun c' hc' => h c' (by simp [hc']))

/-- `get_best` over records. -/
theorem wp_getBest_recs {pt : α → X} {val : α → Fl} {l : List α} {xb : X} {fxb : Fl} {Q : X × Fl → Ghost X → Prop}
    (h : ∀ e ∈ l, C.Fit g.b (pt e) (val e)) (hb : C.Fit g.b xb fxb) (hc : Cov C (fun u => u = fxb ∨ ∃ e ∈ l, u = val e) g)
    (hQ : ∀ r : X × Fl, Inc C r.1 r.2 g → Q r g) :
    (Prog.getBest (l.map pt) (l.map val) xb fxb).wp C Q g :=
  wp_getBest_inc (forall₂_map h) hb (hc.mono fun u hu => hu.imp_right fun ⟨e, he, hu⟩ => hu ▸ List.mem_map_of_mem he) hQ

/-- `get_best` over arrays. -/
theorem wp_getBest_arr {n : ℕ} {pop : Fin n → X} {fit : Fin n → Fl} {xb : X} {fxb : Fl} {Q : X × Fl → Ghost X → Prop}
    (h : ∀ i, C.Fit g.b (pop i) (fit i)) (hb : C.Fit g.b xb fxb) (hc : Cov C (fun u => u = fxb ∨ ∃ i, u = fit i) g)
    (hQ : ∀ r : X × Fl, Inc C r.1 r.2 g → Q r g) :
    (Prog.getBest (List.ofFn pop) (List.ofFn fit) xb fxb).wp C Q g :=
  wp_getBest_inc (forall₂_ofFn h) hb (hc.mono fun u hu => hu.imp_right fun hu => mem_ofFn_iff.2 hu) hQ

/-- `if val(best) < fxb: xb, fxb = best` for a best member of a population. -/
theorem Inc.argminLt {pt : α → X} {val : α → Fl} {l : List α} {best : α} {xb : X} {fxb : Fl} (hb : best ∈ l)
    (hmin : (∀ e ∈ l, val e ≠ .nan) → ∀ e ∈ l, val best ≤ val e) (hf : ∀ e ∈ l, C.Fit g.b (pt e) (val e)) (hx : C.Fit g.b xb fxb)
    (hc : Cov C (fun u => u = fxb ∨ ∃ e ∈ l, u = val e) g) :
    Inc C (NiaPy.betterLt (pt best) (val best) xb fxb).1 (NiaPy.betterLt (pt best) (val best) xb fxb).2 g := by
  refine Inc.of_cov ?_ (hc.weaken fun hn u hu _ => ⟨_, rfl, ?_⟩)
  · unfold NiaPy.betterLt; split
    · exact hf _ hb
    · exact hx
  · have hnn : ∀ e ∈ l, val e ≠ .nan := fun e he => hn _ _ (hf e he).1
    have hm := hmin hnn
    have hx : fxb ≠ .nan := hn _ _ hx.1
    unfold NiaPy.betterLt
    split
    · rename_i hlt
      rcases hu with rfl | ⟨e, he, rfl⟩
      · exact Fl.le_of_lt hlt
      · exact hm e he
    · rename_i hlt
      have hle := Fl.le_of_not_lt (hnn _ hb) hx hlt
      rcases hu with rfl | ⟨e, he, rfl⟩
      · exact Fl.le_refl hx
      · exact Fl.le_trans hle (hm e he)

/-- Keeping the better of old and new in every position. -/
theorem Cov.greedy {n : ℕ} {S : Fl → Prop} {fit newF out : Fin n → Fl} (hc : Cov C (fun u => S u ∨ ∃ i, u = newF i) g)
    (ho : ∀ i, out i = newF i ∨ (out i = fit i ∧ ¬ newF i < fit i))
    (hnn : C.NN → ∀ i, newF i ≠ .nan ∧ fit i ≠ .nan) : Cov C (fun u => S u ∨ ∃ i, u = out i) g :=
  hc.weaken fun hn u hu hne => by
    rcases hu with hu | ⟨i, rfl⟩
    · exact ⟨u, Or.inl hu, Fl.le_refl hne⟩
    · have hh := hnn hn i
      rcases ho i with h | ⟨h, hlt⟩
      · exact ⟨_, Or.inr ⟨i, h.symm⟩, Fl.le_refl hh.1⟩
      · exact ⟨_, Or.inr ⟨i, rfl⟩, by rw [h]; exact Fl.le_of_not_lt hh.1 hh.2 hlt⟩

/-- `replace = new_fitness < fitness; population[replace] = new[replace]; fitness[replace] = new_fitness[replace]` -/
def keepBetter {n : ℕ} (pop new : Fin n → X) (fit newF : Fin n → Fl) : (Fin n → X) × (Fin n → Fl) :=
  (fun i => if newF i < fit i then new i else pop i, fun i => if newF i < fit i then newF i else fit i)

theorem keepBetter_fit {n : ℕ} {pop new : Fin n → X} {fit newF : Fin n → Fl} {b : Fl} (h : ∀ i, C.Fit b (pop i) (fit i))
    (h' : ∀ i, C.Fit b (new i) (newF i)) :
    ∀ i, C.Fit b ((keepBetter pop new fit newF).1 i) ((keepBetter pop new fit newF).2 i) := fun i => by
  simp only [keepBetter]
  split
  · exact h' i
  · exact h i

theorem Cov.keepBetter {n : ℕ} {S : Fl → Prop} {pop new : Fin n → X} {fit newF : Fin n → Fl} {b : Fl}
    (hc : Cov C (fun u => S u ∨ ∃ i, u = newF i) g) (h : ∀ i, C.Fit b (pop i) (fit i)) (h' : ∀ i, C.Fit b (new i) (newF i)) :
    Cov C (fun u => S u ∨ ∃ i, u = (keepBetter pop new fit newF).2 i) g := by
  refine hc.greedy (fit := fit) (fun i => ?_) fun hn i => ⟨hn _ _ (h' i).1, hn _ _ (h i).1⟩
  simp only [NiaPy.keepBetter]
  split
  · exact Or.inl rfl
  · exact Or.inr ⟨rfl, ‹_›⟩

/-- Repairing every row of a population (`task.repair(population, rng=self.rng)`). Of the repair functions only `limit`
works on a matrix; the others index the bounds with a pair and raise `IndexError`. -/
def repairRows {n : ℕ} (pop : Fin n → X) (seeded : Bool := true) : Prog X (Fin n → X) := tabM n fun i => Prog.repair (pop i) seeded

theorem Yields.repairRows {n : ℕ} {pop : Fin n → X} {seeded : Bool} (h : seeded = true ∨ C.ent) :
    Yields C (NiaPy.repairRows pop seeded) fun r => ∀ i, C.G (r i) :=
  Yields.tabM fun i => ⟨fun g => by rw [Prog.wp_repair]; exact ⟨h, fun y hy _ => ⟨hy, rfl⟩⟩⟩

/-! ### Default initialization -/

/-- What most algorithms need of `default_numpy_init`. -/
theorem wp_initArr {D N : ℕ} {C : Ctx (Vec D)} {g : Ghost (Vec D)} {B : Box D} (hG : ∀ x, B.Mem x → C.G x) (hg : g.b = .pinf)
    {Q : (Fin N → Vec D) × (Fin N → Fl) → Ghost (Vec D) → Prop}
    (hQ : ∀ r g', 0 < N → (∀ i, B.Mem (r.1 i)) → (∀ i, C.Fit g'.b (r.1 i) (r.2 i)) → Cov C (· ∈ List.ofFn r.2) g' →
      g'.c = g.c + N → Q r g') : (defaultNumpyInit B N).wp C Q g :=
  Prog.wp_mono (fun r g' h => hQ r g' h.1 h.2.1 h.2.2.1 (h.2.2.2.1.mono fun _ hu => hu.resolve_left id) h.2.2.2.2)
    (wp_defaultNumpyInit hG (Cov.pinf hg fun _ => False))

/-- What most algorithms need of `default_individual_init`. -/
theorem wp_initInd {D N : ℕ} {C : Ctx (Vec D)} {g : Ghost (Vec D)} {B : Box D} {opt : OptType} (hg : g.b = .pinf)
    {Q : (Fin N → Indiv D) → Ghost (Vec D) → Prop}
    (hQ : ∀ r g', (∀ i, C.G (r i).x) → (∀ i, C.Fit g'.b (r i).x (r i).f) → Cov C (· ∈ List.ofFn fun i => (r i).f) g' →
      g'.c = g.c + N → Q r g') : (defaultIndividualInit opt B N).wp C Q g :=
  Prog.wp_mono (fun r g' h => hQ r g' h.1 h.2.1 (h.2.2.1.mono fun _ hu => mem_ofFn_iff.2 (hu.resolve_left id)) h.2.2.2)
    (wp_defaultIndividualInit (Cov.pinf hg fun _ => False))

end NiaPy
