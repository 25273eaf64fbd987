import Mathlib.Tactic.Ring
import Mathlib.Tactic.FieldSimp
import Mathlib.Tactic.Positivity
import Mathlib.Tactic.Linarith
import Verif.PopTools
import Verif.Runs

/-!
# Grey wolf optimizer (`niapy/algorithms/basic/gwo.py`), with C33
-/

namespace NiaPy.GWO
open NiaPy
variable [Arith] {D N : ℕ}

/-- The three leaders with their fitness values (gwo.py:73-89). -/
structure Leaders (D : ℕ) where
  alpha : Vec D
  alphaF : Fl
  beta : Vec D
  betaF : Fl
  delta : Vec D
  deltaF : Fl

/-- State of a run. -/
structure St (D N : ℕ) where
  pop : Fin N → Vec D
  fit : Fin N → Fl
  lead : Leaders D

/-- `init_population` (gwo.py:52-90). With fewer than three wolves `si[2]` (or `si[1]`) raises `IndexError`. -/
def init (B : Box D) (N : ℕ) : Prog (Vec D) (St D N) := do
  let (pop, fit) ← defaultNumpyInit B N
  let si ← sortIdx fit
  if h : 2 < N then
    let i0 := si ⟨0, by omega⟩
    let i1 := si ⟨1, by omega⟩
    let i2 := si ⟨2, h⟩
    return ⟨pop, fit, ⟨pop i0, fit i0, pop i1, fit i1, pop i2, fit i2⟩⟩
  else .throw .indexError

/-- Position of a wolf seen from one leader (gwo.py:125-130). -/
def approach (a : Fl) (lead w : Vec D) : Prog (Vec D) (Vec D) := do
  let r ← randVec D
  let r' ← randVec D
  let c : Vec D := fun d => Fl.ofNat 2 * r' d
  return fun d => lead d - (Fl.ofNat 2 * a * r d - a) * Fl.abs (c d * lead d - w d)

/-- The move of one wolf (gwo.py:125-131). -/
def move (a : Fl) (l : Leaders D) (w : Vec D) : Prog (Vec D) (Vec D) := do
  let x1 ← approach a l.alpha w
  let x2 ← approach a l.beta w
  let x3 ← approach a l.delta w
  Prog.repair fun d => (x1 d + x2 d + x3 d) / Fl.ofNat 3

/-- Body of the loop that updates the leaders (gwo.py:134-139). -/
def Leaders.update (l : Leaders D) (e : Vec D × Fl) : Leaders D :=
  if e.2 < l.alphaF then { l with alpha := e.1, alphaF := e.2 }
  else if l.alphaF < e.2 ∧ e.2 < l.betaF then { l with beta := e.1, betaF := e.2 }
  else if l.betaF < e.2 ∧ e.2 < l.deltaF then { l with delta := e.1, deltaF := e.2 }
  else l

/-- The loop that updates the leaders (gwo.py:133-139). -/
def Leaders.scan (l : Leaders D) (pop : Fin N → Vec D) (fit : Fin N → Fl) : Leaders D :=
  (List.ofFn fun i => (pop i, fit i)).foldl Leaders.update l

/-- `a` (gwo.py:123) -/
def amount (v : TaskView) : Fl := Fl.ofNat 2 - Fl.ofNat v.evals * (Fl.ofNat 2 / limF v.maxEvals)

/-- `run_iteration` (gwo.py:92-143). -/
def iter (s : St D N) (xb : Vec D) (fxb : Fl) : Prog (Vec D) (St D N × Vec D × Fl) := do
  let v ← Prog.look
  let r ← moveEval fun i => move (amount v) s.lead (s.pop i)
  let pop := fun i => (r i).1
  let fit := fun i => (r i).2
  let l := s.lead.scan pop fit
  return (⟨pop, fit, l⟩, getBest1 l.alpha l.alphaF xb fxb)

/-- The grey wolf optimizer with population size `N` (gwo.py). -/
def alg (B : Box D) (N : ℕ) : Alg (Vec D) where
  σ := St D N
  init := init B N
  pop s := List.ofFn s.pop
  fit s := List.ofFn s.fit
  iter := iter

variable {C : Ctx (Vec D)}

theorem approach_quiet (a : Fl) (l w : Vec D) : Quiet C (approach a l w) := by
  unfold approach
  yields

theorem move_good (a : Fl) (l : Leaders D) (w : Vec D) : Yields C (move a l w) C.G := by
  unfold move
  exact Yields.bindT (approach_quiet ..) fun _ => Yields.bindT (approach_quiet ..) fun _ =>
    Yields.bindT (approach_quiet ..) fun _ => Yields.repair

/-- A property of leaders with their fitness. -/
def Leaders.All (P : Vec D → Fl → Prop) (l : Leaders D) : Prop := P l.alpha l.alphaF ∧ P l.beta l.betaF ∧ P l.delta l.deltaF

/-- The order of the leaders. -/
def Leaders.Ordered (l : Leaders D) : Prop := l.alphaF ≤ l.betaF ∧ l.betaF ≤ l.deltaF

theorem Leaders.All.update {P : Vec D → Fl → Prop} {l : Leaders D} (h : l.All P) {e : Vec D × Fl} (he : P e.1 e.2) :
    (l.update e).All P := by
  obtain ⟨h1, h2, h3⟩ := h
  unfold Leaders.update
  split
  · exact ⟨he, h2, h3⟩
  · split
    · exact ⟨h1, he, h3⟩
    · split
      · exact ⟨h1, h2, he⟩
      · exact ⟨h1, h2, h3⟩

theorem Leaders.All.foldl {P : Vec D → Fl → Prop} (es : List (Vec D × Fl)) {l : Leaders D} (h : l.All P) (he : ∀ e ∈ es, P e.1 e.2) :
    (es.foldl Leaders.update l).All P := by
  induction es generalizing l with
  | nil => exact h
  | cons e es ih => exact ih (h.update (he e (by simp))) fun e' he' => he e' (by simp [he'])

theorem Leaders.Ordered.update {l : Leaders D} (h : l.Ordered) (e : Vec D × Fl) : (l.update e).Ordered := by
  obtain ⟨h1, h2⟩ := h
  unfold Leaders.update
  split
  · rename_i hlt; exact ⟨Fl.le_trans (Fl.le_of_lt hlt) h1, h2⟩
  · split
    · rename_i hlt; exact ⟨Fl.le_of_lt hlt.1, Fl.le_trans (Fl.le_of_lt hlt.2) h2⟩
    · split
      · rename_i hlt; exact ⟨h1, Fl.le_of_lt hlt.1⟩
      · exact ⟨h1, h2⟩

theorem Leaders.Ordered.foldl (es : List (Vec D × Fl)) {l : Leaders D} (h : l.Ordered) : (es.foldl Leaders.update l).Ordered := by
  induction es generalizing l with
  | nil => exact h
  | cons e es ih => exact ih (h.update e)

theorem update_alpha {l : Leaders D} (hl : l.alphaF ≠ .nan) {e : Vec D × Fl} (he : e.2 ≠ .nan) :
    (l.update e).alphaF ≤ l.alphaF ∧ (l.update e).alphaF ≤ e.2 := by
  unfold Leaders.update
  split
  · rename_i hlt; exact ⟨Fl.le_of_lt hlt, Fl.le_refl he⟩
  · rename_i hlt
    have := Fl.le_of_not_lt he hl hlt
    split
    · exact ⟨Fl.le_refl hl, this⟩
    · split
      · exact ⟨Fl.le_refl hl, this⟩
      · exact ⟨Fl.le_refl hl, this⟩

theorem foldl_alpha (es : List (Vec D × Fl)) {l : Leaders D} (hl : l.alphaF ≠ .nan) (hn : ∀ e ∈ es, e.2 ≠ .nan) :
    (es.foldl Leaders.update l).alphaF ≤ l.alphaF ∧ ∀ e ∈ es, (es.foldl Leaders.update l).alphaF ≤ e.2 := by
  induction es generalizing l with
  | nil => exact ⟨Fl.le_refl hl, nofun⟩
  | cons e es ih =>
    have h1 := update_alpha hl (hn e (by simp))
    have h2 := ih (Fl.ne_nan_of_le_left h1.1) fun e' he' => hn e' (by simp [he'])
    refine ⟨Fl.le_trans h2.1 h1.1, fun e' he' => ?_⟩
    rcases List.mem_cons.1 he' with rfl | he'
    · exact Fl.le_trans h2.1 h1.2
    · exact h2.2 e' he'

/-- What one iteration does. -/
theorem wp_iter (s : St D N) (xb : Vec D) (fxb : Fl) {g : Ghost (Vec D)} (hl : s.lead.All (C.Fit g.b)) (hinc : Inc C xb fxb g) :
    (iter s xb fxb).wp C (fun r g' => (∀ i, C.Fit g'.b (r.1.pop i) (r.1.fit i)) ∧ r.1.lead.All (C.Fit g'.b) ∧
      Inc C r.2.1 r.2.2 g' ∧ g'.c = g.c + N ∧ r.1.lead = s.lead.scan r.1.pop r.1.fit) g := by
  simp only [iter, Prog.wp_bind', Prog.wp_look]
  intro v
  refine wp_moveEval (fun i => move_good ..) hinc.cov fun r g' hb hf hc hn => ?_
  have hes : ∀ e ∈ List.ofFn (fun i => ((r i).1, (r i).2)), C.Fit g'.b e.1 e.2 := fun e he => by
    obtain ⟨i, rfl⟩ := (List.mem_ofFn).1 he
    exact hf i
  have hl' : (s.lead.scan (fun i => (r i).1) fun i => (r i).2).All (C.Fit g'.b) :=
    Leaders.All.foldl _ ⟨hl.1.mono hb, hl.2.1.mono hb, hl.2.2.mono hb⟩ hes
  refine ⟨hf, hl', ?_, hn, rfl⟩
  have hfx := hinc.toFit.mono hb
  have hcov : Cov C (fun u => u = fxb ∨ u = (s.lead.scan (fun i => (r i).1) fun i => (r i).2).alphaF) g' :=
    hc.weaken fun hnn u hu hne => by
      rcases hu with rfl | ⟨i, rfl⟩
      · exact ⟨_, Or.inl rfl, Fl.le_refl hne⟩
      · exact ⟨_, Or.inr rfl, (foldl_alpha _ (hnn _ _ hl.1.1) fun e he => hnn _ _ (hes e he).1).2 ((r i).1, (r i).2)
          (List.mem_ofFn.2 ⟨i, rfl⟩)⟩
  simp only [getBest1]
  by_cases hle : (s.lead.scan (fun i => (r i).1) fun i => (r i).2).alphaF ≤ fxb
  · rw [if_pos hle]
    exact Inc.of_cov hl'.1 (hcov.weaken fun hnn u hu hne => by
      rcases hu with rfl | rfl
      · exact ⟨_, rfl, hle⟩
      · exact ⟨_, rfl, Fl.le_refl hne⟩)
  · rw [if_neg hle]
    exact Inc.of_cov hfx (hcov.weaken fun hnn u hu hne => by
      rcases hu with rfl | rfl
      · exact ⟨_, rfl, Fl.le_refl hne⟩
      · exact ⟨_, rfl, Fl.le_of_lt (Fl.lt_of_not_le (hnn _ _ hl'.1.1) (hnn _ _ hfx.1) hle)⟩)

/-- What the initialization does. -/
theorem wp_init (B : Box D) (hG : ∀ x, B.Mem x → C.G x) {g : Ghost (Vec D)} (hg : g.b = .pinf) :
    (init B N).wp C (fun s g' => (∀ i, C.Fit g'.b (s.pop i) (s.fit i)) ∧ Cov C (· ∈ List.ofFn s.fit) g' ∧ g'.c = g.c + N ∧
      s.lead.All (C.Fit g'.b) ∧ ((∀ i, s.fit i ≠ .nan) → s.lead.Ordered)) g := by
  simp only [init, Prog.wp_bind']
  refine wp_initArr hG hg fun r g' _ _ h3 h4 h5 => ?_
  refine Yields.sortIdx.wp fun si hsi => ?_
  split
  · refine ⟨h3, h4, h5, ⟨h3 _, h3 _, h3 _⟩, fun hn => ?_⟩
    have key : ∀ i j : Fin N, i < j → r.2 (si i) ≤ r.2 (si j) := fun i j hij => by
      have := hsi.2 i j hij
      rcases this with h | h
      · exact absurd h (hn _)
      · exact h
    exact ⟨key _ _ (by simp [Fin.lt_def]), key _ _ (by simp [Fin.lt_def])⟩
  · exact nofun

/-- The obligations of the grey wolf optimizer: `N` evaluations in the beginning and per iteration. -/
theorem verified (B : Box D) (N : ℕ) : Verified (alg B N) B.Mem true true (.exact N N) := by
  refine ⟨fun C s b => (∀ i, C.Fit b (s.pop i) (s.fit i)) ∧ s.lead.All (C.Fit b), fun C hG hent _ =>
    ⟨fun s b h => forall₂_ofFn h.1, fun g hg => ?_, ?_⟩⟩
  · exact Prog.wp_mono (fun s g' h => ⟨⟨h.1, h.2.2.2.1⟩, h.2.1, h.2.2.1⟩) (wp_init B hG hg)
  · intro s xb fxb g hI hF hc
    exact Prog.wp_mono (fun r g' h => ⟨⟨h.1, h.2.1⟩, h.2.2.1.fit, h.2.2.1.eq, Cost.ok_exact h.2.2.2.1⟩)
      (wp_iter s xb fxb hI.2 ⟨hF, hc⟩)

/-- C33: at the head of every iteration, the fitness of alpha is at most that of beta, which is at most that of delta, and
each of the three was evaluated with this fitness (`+inf` if the budget was used up). -/
theorem C33_leaders (B : Box D) (N : ℕ) (env : Env (Vec D)) (hnn : NoNaN env) (ncb : ℕ)
    (hist : List (St D N × Vec D × Fl)) (w : World (Vec D)) (h : (alg B N).Trace env ncb hist w) :
    ∀ r ∈ hist, r.1.lead.alphaF ≤ r.1.lead.betaF ∧ r.1.lead.betaF ≤ r.1.lead.deltaF ∧
      FitOK env.opt w.calls r.1.lead.alpha r.1.lead.alphaF ∧ FitOK env.opt w.calls r.1.lead.beta r.1.lead.betaF ∧
      FitOK env.opt w.calls r.1.lead.delta r.1.lead.deltaF := by
  let C := w.ctx env False
  have hw := h.calls
  have hF : ∀ x v, FitOK env.opt w.calls x v → v ≠ .nan := fun x v hf => by
    rcases hw.possible hf with rfl | ⟨k, r, ho, rfl⟩
    · simp
    · rw [ne_eq, OptType.mul_eq_nan]; exact hnn k x r ho
  have := Alg.Trace.inv (A := alg B N) (C := C) (.of (fun _ _ _ => trivial) fun _ _ _ => by first | trivial | assumption) trivial
    (fun hist _ => (∀ r ∈ hist, r.1.lead.Ordered ∧ r.1.lead.All (FitOK env.opt w.calls)) ∧
      ∀ r ∈ hist, FitOK env.opt w.calls r.2.1 r.2.2) ?_ ?_ h (fun x v hf => hf)
  · intro r hr
    obtain ⟨⟨h1, h2⟩, h3, h4, h5⟩ := this.1 r hr
    exact ⟨h1, h2, h3, h4, h5⟩
  · intro g hg
    refine Prog.wp_mono (fun s g' hs b hb => ?_) (wp_init B (fun _ _ => trivial) hg)
    obtain ⟨h1, -, -, h2, h3⟩ := hs
    simp only [List.mem_singleton, forall_eq]
    refine ⟨⟨h3 fun i => hF _ _ (h1 i).1, h2.1.1, h2.2.1.1, h2.2.2.1⟩, ?_⟩
    exact getBest_aligned (F := FitOK env.opt w.calls) (forall₂_ofFn fun i => (h1 i).1) (fun x hx => by cases hx) hb
  · intro r hist g hJ
    have hl := hJ.1 r (by simp)
    have fit : ∀ {x v}, FitOK env.opt w.calls x v → C.Fit g.b x v := fun hf => ⟨hf, fun hn => hn.trk.elim⟩
    refine Prog.wp_mono (fun r' g' hr => ?_) (wp_iter r.1 r.2.1 r.2.2 ⟨fit hl.2.1, fit hl.2.2.1, fit hl.2.2.2⟩
      ⟨hJ.2 r (by simp), fun hn => hn.trk.elim⟩)
    obtain ⟨h1, h2, h3, -, h4⟩ := hr
    refine ⟨fun a ha => ?_, fun a ha => ?_⟩
    · rcases List.mem_cons.1 ha with rfl | ha
      · refine ⟨?_, h2.1.1, h2.2.1.1, h2.2.2.1⟩
        rw [h4]
        exact Leaders.Ordered.foldl _ hl.1
      · exact hJ.1 a ha
    · rcases List.mem_cons.1 ha with rfl | ha
      · exact h3.fit
      · exact hJ.2 a ha

/-- A run with three wolves and two iterations. -/
example : NoNaN (Ex.env2 (D := 1)) ∧ ∃ hist w, Alg.Trace (@alg Ex.arith 1 (Ex.box 1) 3) Ex.env2 1 hist w ∧ hist.length = 3 :=
  ⟨Ex.env2_noNaN _ _, letI := Ex.arith; (verified (Ex.box 1) 3).toIf.exists_trace Ex.env2 (metBy_none _ _) (fuel := 5) (by decide +kernel)⟩

/-! ## C92: the control parameter -/

omit [Arith] in
/-- **C92.** With a limit on the evaluations the control parameter is `2 (1 - evals / max_evals)`: within 0 and 2 and falling. -/
theorem C92_gwo (fn : Fn → Fl → Fl) (v : TaskView) (E : ℕ) (hE : v.maxEvals = some E) (hpos : 0 < E) :
    letI := exactArith fn
    amount v = .fin (2 * (1 - v.evals / E)) ∧ (v.evals ≤ E → .fin 0 ≤ amount v) ∧ amount v ≤ .fin 2 ∧
      ∀ v' : TaskView, v'.maxEvals = some E → v.evals < v'.evals → amount v' < amount v := by
  have hE' : (0 : ℚ) < E := by exact_mod_cast hpos
  have key : ∀ u : TaskView, u.maxEvals = some E → @amount (exactArith fn) u = .fin (2 * (1 - u.evals / E)) := fun u hu => by
    unfold amount
    rw [hu]
    simp only [Exact.ofNat_fin, Exact.div_some fn _ hpos, Exact.mul_fin, Exact.sub_fin, Fl.fin.injEq]
    push_cast
    ring
  refine ⟨key v hE, fun h => ?_, ?_, fun v' h' hlt => ?_⟩
  · rw [key v hE, Fl.fin_le_fin]
    have : (v.evals : ℚ) / E ≤ 1 := (div_le_one hE').2 (by exact_mod_cast h)
    linarith
  · rw [key v hE, Fl.fin_le_fin]
    have : (0 : ℚ) ≤ (v.evals : ℚ) / E := by positivity
    linarith
  · rw [key v hE, key v' h', Fl.fin_lt_fin]
    have : (v.evals : ℚ) / E < v'.evals / E := (div_lt_div_iff_of_pos_right hE').2 (by exact_mod_cast hlt)
    linarith

omit [Arith] in
/-- **C92 fails without that limit**: with a limit on the iterations only the control parameter is 2 throughout. -/
theorem C92_gwo_false (fn : Fn → Fl → Fl) (v : TaskView) (hE : v.maxEvals = none) : letI := exactArith fn; amount v = .fin 2 := by
  unfold amount
  rw [hE]
  simp only [Exact.ofNat_fin, Exact.div_none, Exact.mul_fin, Exact.sub_fin, Fl.fin.injEq]
  push_cast
  ring

example : letI := Ex.arith; amount ⟨0, 30, none, some 120, false⟩ = .fin (3 / 2) := by decide +kernel

end NiaPy.GWO
