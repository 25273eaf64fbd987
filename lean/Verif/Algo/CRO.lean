import Verif.PopTools
import Verif.Runs
import Verif.Post
import Verif.Algo.ASO

/-!
# Coral reefs optimization (`niapy/algorithms/basic/cro.py`)

With the default functions for sexual crossover and brooding.
-/

namespace NiaPy.CRO
variable [Arith] {D N : ℕ}

/-- Parameters (cro.py:140-175). `num*` are `int(population_size * …_prob)`. -/
structure Par where
  phi : Fl
  k : ℕ
  cr : Fl
  mr : Fl
  numAsexual : ℕ
  numBroadcast : ℕ
  numDepredation : ℕ

/-- State of a run. After `depredation` the population is a vector of numbers instead of a matrix (`flat`, cro.py:276); `reef` then only
tells the fitness values. -/
structure St (D : ℕ) where
  reef : List (Vec D × Fl)
  flat : Bool

/-- The loop of `default_sexual_crossover` (cro.py:30-31). -/
def crossover {n : ℕ} (p : Fl) (pop : Fin n → Vec D) : Prog (Vec D) (Fin n → Vec D) :=
  forFin (n / 2) (fun i pop => do
    let v ← tabM D fun d => do
      let r ← Prog.rand
      return if r < p then pop ⟨i, by have := i.2; omega⟩ d else pop ⟨i * 2, by have := i.2; omega⟩ d
    return Function.update pop ⟨i, by have := i.2; omega⟩ v) pop

/-- One coral in `default_brooding` (cro.py:51-53). -/
def brood (B : Box D) (p : Fl) (x : Vec D) : Prog (Vec D) (Vec D) := do
  let y ← tabM D fun d => do
    let r ← Prog.rand
    if r < p then return x d
    else do
      let u ← Prog.rand
      return B.lo d + (B.hi d - B.lo d) * u
  Prog.repair y

/-- One coral in `move_corals` (cro.py:74-77). -/
def move (p f : Fl) (x : Vec D) : Prog (Vec D) (Vec D) := do
  let y ← tabM D fun d => do
    let r ← Prog.rand
    if r < p then return x d
    else do
      let u ← Prog.rand
      return x d + f * u
  Prog.repair y

/-- `default_brooding` (cro.py:35-54). -/
def brooding (B : Box D) (p : Fl) (l : List (Vec D)) : Prog (Vec D) (List (Vec D × Fl)) := do
  let l ← mapM' l (brood B p)
  evalRecs l

/-- `a[ind] = r`, where `ind` are the indices of the elements with `near`. -/
def scatter {α : Type} (near : α → Bool) : List α → List α → List α
  | [], _ => []
  | e :: l, r => if near e then (match r with
      | y :: ys => y :: scatter near l ys
      | [] => e :: scatter near l [])
    else e :: scatter near l r

/-- `update` (cro.py:299-309) in `settling`; `ind.any()` ignores the index 0. -/
def update (p : Par) (arr : List (Vec D)) (a : List (Vec D × Fl) × Vec D × Fl) : Prog (Vec D) (List (Vec D × Fl) × Vec D × Fl) :=
  let near := fun e : Vec D × Fl => arr.any fun y => decide (euclid y e.1 < p.phi)
  if (a.1.drop 1).any near then do
    let moved ← mapM' (a.1.filter near) fun e => move p.mr p.mr e.1
    let r ← evalRecs moved
    let b ← Prog.getBest (r.map (·.1)) (r.map (·.2)) a.2.1 a.2.2
    return (scatter near a.1 r, b)
  else return a

/-- `settling` (cro.py:278-316). -/
def settling (p : Par) (reef new : List (Vec D × Fl)) (xb : Vec D) (fxb : Fl) : Prog (Vec D) (List (Vec D × Fl) × Vec D × Fl) := do
  let a ← forList (List.range p.k) (fun _ a => do
    let a ← update p (reef.map (·.1)) a
    update p (a.1.map (·.1)) a) (new, xb, fxb)
  return (reef ++ a.1.filter (fun e => reef.any fun y => decide (p.phi ≤ euclid y.1 e.1)), a.2)

/-- `asexual_reproduction` (cro.py:235-260). -/
def asexual (B : Box D) (p : Par) (reef : List (Vec D × Fl)) (xb : Vec D) (fxb : Fl) : Prog (Vec D) (List (Vec D × Fl) × Vec D × Fl) := do
  let l ← sortRecs (·.2) reef
  let new ← brooding B p.mr ((l.take p.numAsexual).map (·.1))
  let b ← Prog.getBest (new.map (·.1)) (new.map (·.2)) xb fxb
  settling p reef new b.1 b.2

/-- The fitness values left by `depredation` (cro.py:262-276). -/
def depredation (p : Par) (reef : List (Vec D × Fl)) : Prog (Vec D) (List (Vec D × Fl)) := do
  let idx ← Prog.argsort (reef.map (·.2))
  return ((List.finRange reef.length).filter fun j => j.val ∉ idx.reverse.take p.numDepredation).map reef.get

/-- The end of `run_iteration` (cro.py:365-366). -/
def finish (p : Par) (reef : List (Vec D × Fl)) : Prog (Vec D) (St D) := do
  let v ← Prog.look
  if p.k = 0 then .throw .zeroDivisionError
  else if (v.iters + 1) % p.k = 0 then do
    let l ← depredation p reef
    return ⟨l, true⟩
  else return ⟨reef, false⟩

/-- `run_iteration` (cro.py:318-367). If the population is a vector instead of a matrix, this raises: `pop[i, d]` (31) or
`np.apply_along_axis(…, 1, …)` (32) with an `IndexError` (`AxisError` is a subclass), or `choice` (342) with a `ValueError`. -/
def iter (B : Box D) (p : Par) (s : St D) (xb : Vec D) (fxb : Fl) : Prog (Vec D) (St D × Vec D × Fl) :=
  if s.flat then .throw .indexError
  else do
    let c ← choiceFin s.reef.length p.numBroadcast
    let cast ← crossover p.cr fun i => (s.reef.get (c i)).1
    let cast ← evalRecs (List.ofFn cast)
    let b ← Prog.getBest (cast.map (·.1)) (cast.map (·.2)) xb fxb
    let young ← brooding B p.mr (((List.finRange s.reef.length).filter fun j => ∀ i, c i ≠ j).map fun j => (s.reef.get j).1)
    let b ← Prog.getBest (young.map (·.1)) (young.map (·.2)) b.1 b.2
    let a ← settling p s.reef (cast ++ young) b.1 b.2
    let a ← asexual B p a.1 a.2.1 a.2.2
    let s ← finish p a.1
    return (s, a.2)

/-- Coral reefs optimization. -/
def alg (B : Box D) (N : ℕ) (p : Par) : Alg (Vec D) where
  σ := St D
  init := do
    let (pop, fit) ← defaultNumpyInit B N
    return ⟨List.ofFn fun i => (pop i, fit i), false⟩
  pop s := if s.flat then [] else s.reef.map (·.1)
  fit s := s.reef.map (·.2)
  iter := iter B p

/-! ### Obligations -/

variable {B : Box D} {C : Ctx (Vec D)} {g : Ghost (Vec D)} {p : Par}

/-- Corals that may be kept: their fitness is known, and they may be mixed. -/
def Alive (C : Ctx (Vec D)) (b : Fl) (l : List (Vec D × Fl)) : Prop := ∀ e ∈ l, C.Fit b e.1 e.2 ∧ C.G e.1

theorem crossover_yields {n : ℕ} (hP : ASO.Pointwise C) (cr : Fl) {pop : Fin n → Vec D} (h : ∀ i, C.G (pop i)) :
    Yields C (crossover cr pop) fun r => ∀ i, C.G (r i) := by
  refine Yields.forFin (fun r : Fin n → Vec D => ∀ i, C.G (r i)) h fun i r hr => ?_
  refine .bind' (P := fun v => C.G v) ?_ fun v hv => .pure' fun j => ?_
  · refine (Yields.tabM (P := fun d (v : Fl) => ∃ y, C.G y ∧ v = y d) fun d => .bindT (Yields.rand.quiet) fun u => .pure' ?_).mono fun v hv => hP v hv
    split
    · exact ⟨_, hr _, rfl⟩
    · exact ⟨_, hr _, rfl⟩
  · by_cases hj : j = ⟨i, by have := i.2; omega⟩
    · subst hj; simpa using hv
    · rw [Function.update_of_ne hj]; exact hr j

theorem brood_yields (pr : Fl) (x : Vec D) : Yields C (brood B pr x) C.G := by
  unfold brood
  exact .bindT (Yields.tabMT fun d => by yields) fun _ => .repair

theorem move_yields (pr f : Fl) (x : Vec D) : Yields C (move pr f x) C.G := by
  unfold move
  exact .bindT (Yields.tabMT fun d => by yields) fun _ => .repair

omit [Arith] in
theorem scatter_mem {α : Type} {near : α → Bool} {l r : List α} {e : α} (h : e ∈ scatter near l r) : e ∈ l ∨ e ∈ r := by
  induction l generalizing r with
  | nil => cases h
  | cons a l ih =>
    unfold scatter at h
    split at h
    · split at h
      · rcases List.mem_cons.1 h with rfl | h
        · exact .inr List.mem_cons_self
        · rcases ih h with h | h
          · exact .inl (List.mem_cons_of_mem _ h)
          · exact .inr (List.mem_cons_of_mem _ h)
      · rcases List.mem_cons.1 h with rfl | h
        · exact .inl List.mem_cons_self
        · rcases ih h with h | h
          · exact .inl (List.mem_cons_of_mem _ h)
          · cases h
    · rcases List.mem_cons.1 h with rfl | h
      · exact .inl List.mem_cons_self
      · rcases ih h with h | h
        · exact .inl (List.mem_cons_of_mem _ h)
        · exact .inr h

omit [Arith] in
theorem Alive.mono {b b' : Fl} {l : List (Vec D × Fl)} (h : Alive C b l) (hb : Below b' b) : Alive C b' l := fun e he => ⟨(h e he).1.mono hb, (h e he).2⟩

omit [Arith] in
/-- Evaluating points and updating the incumbent. -/
theorem wp_evalBest {l : List (Vec D)} {xb : Vec D} {fxb : Fl} (hG : ∀ x ∈ l, C.G x) (hi : Inc C xb fxb g)
    {Q : List (Vec D × Fl) → Vec D × Fl → Ghost (Vec D) → Prop}
    (hQ : ∀ r b g', 0 < l.length → Below g'.b g.b → Alive C g'.b r → Inc C b.1 b.2 g' → r.length = l.length → g'.c = g.c + l.length → Q r b g') :
    (evalRecs l).wp C (fun r g' => (Prog.getBest (r.map (·.1)) (r.map (·.2)) xb fxb).wp C (Q r) g') g := by
  refine wp_evalRecs hG hi.cov fun r g1 h1 h2 h3 h4 h5 h6 => ?_
  refine wp_getBest_recs h3 (hi.toFit.mono h2) h4 fun b hb => hQ r b g1 h1 h2 (fun e he => ⟨h3 e he, hG _ (h5 ▸ List.mem_map_of_mem he)⟩) hb ?_ h6
  rw [← h5, List.length_map]

theorem wp_update {arr : List (Vec D)} {a : List (Vec D × Fl) × Vec D × Fl} (ha : Alive C g.b a.1) (hi : Inc C a.2.1 a.2.2 g) :
    (update p arr a).wp C (fun a g' => Below g'.b g.b ∧ g.c ≤ g'.c ∧ Alive C g'.b a.1 ∧ Inc C a.2.1 a.2.2 g') g := by
  unfold update
  dsimp only
  split
  · simp only [Prog.wp_bind']
    refine (Yields.mapMAll (P := C.G) fun e _ => move_yields _ _ _).wp fun l hl => ?_
    exact wp_evalBest hl.1 hi fun r b g' _ h2 h3 h4 _ h6 => ⟨h2, by omega, fun e he => (scatter_mem he).elim (ha.mono h2 e) (h3 e), h4⟩
  · exact ⟨.refl _, le_rfl, ha, hi⟩

theorem wp_settling {reef new : List (Vec D × Fl)} {xb : Vec D} {fxb : Fl} (hr : Alive C g.b reef) (hn : Alive C g.b new) (hi : Inc C xb fxb g) :
    (settling p reef new xb fxb).wp C (fun a g' => Below g'.b g.b ∧ g.c ≤ g'.c ∧ Alive C g'.b a.1 ∧ Inc C a.2.1 a.2.2 g' ∧ reef.length ≤ a.1.length) g := by
  unfold settling
  simp only [Prog.wp_bind']
  refine Prog.wp_mono ?_ (wp_forList (C := C) (fun a (g' : Ghost (Vec D)) => Below g'.b g.b ∧ g.c ≤ g'.c ∧ Alive C g'.b a.1 ∧ Inc C a.2.1 a.2.2 g') ⟨.refl _, le_rfl, hn, hi⟩
    fun _ _ a g1 h => ?_)
  · rintro a g' ⟨h1, h2, h3, h4⟩
    refine ⟨h1, h2, fun e he => ?_, h4, by simp⟩
    rcases List.mem_append.1 he with he | he
    · exact hr.mono h1 e he
    · exact h3 e (List.mem_of_mem_filter he)
  · simp only [Prog.wp_bind']
    refine Prog.wp_mono (fun a2 g2 h2 => ?_) (wp_update h.2.2.1 h.2.2.2)
    refine Prog.wp_mono (fun a3 g3 h3 => ?_) (wp_update h2.2.2.1 h2.2.2.2)
    exact ⟨h3.1.trans (h2.1.trans h.1), by have := h.2.1; have := h2.2.1; have := h3.2.1; omega, h3.2.2⟩

theorem finish_quiet (reef : List (Vec D × Fl)) : Yields C (finish p reef) fun s => s.flat = false → s.reef = reef := by
  unfold finish depredation
  refine .bindT .look fun v => .ite (fun _ => .throw nofun) fun _ => .ite (fun _ => ?_) fun _ => .pure' fun _ => rfl
  exact .bindT (by yields) fun l => .pure' nofun

/-- The obligations of coral reefs optimization. -/
theorem verified (B : Box D) (N : ℕ) (p : Par) :
    VerifiedIf ASO.Pointwise (alg B N p) B.Mem true true ⟨N, N + min p.numAsexual N, none⟩ False := by
  refine ⟨fun C (s : St D) b => s.flat = false → Alive C b s.reef ∧ N ≤ s.reef.length, fun C hP hG _ _ => ⟨False.elim, fun g hg => ?_, ?_⟩⟩
  · simp only [alg, Prog.wp_bind']
    refine wp_initArr hG hg fun r g' _ h2 h3 h4 h5 => ⟨fun _ => ⟨fun e he => ?_, by simp⟩, ?_, ?_, h5⟩
    · obtain ⟨i, rfl⟩ := (List.mem_ofFn ..).1 he
      exact ⟨h3 i, hG _ (h2 i)⟩
    · simpa [List.map_ofFn, Function.comp_def] using forall₂_ofFn h3
    · refine h4.mono fun u hu => ?_
      simpa [List.map_ofFn, Function.comp_def] using hu
  · intro s xb fxb g hI hF hc
    have hinc : Inc C xb fxb g := ⟨hF, hc⟩
    simp only [alg, iter, asexual, brooding]
    split
    · exact nofun
    · rename_i hfl
      obtain ⟨hA, hlen⟩ := hI (by simpa using hfl)
      simp only [Prog.wp_bind']
      refine Yields.choiceFin.wp fun c hc' => (crossover_yields hP p.cr fun i => (hA _ (List.get_mem ..)).2).wp fun cast hcast => ?_
      refine wp_evalBest (fun x hx => by obtain ⟨i, rfl⟩ := (List.mem_ofFn ..).1 hx; exact hcast i) hinc fun r1 b1 g1 _ hb1 hr1 hi1 _ hc1 => ?_
      refine (Yields.mapMAll (P := C.G) fun x _ => brood_yields _ _).wp fun l hl => ?_
      refine wp_evalBest hl.1 hi1 fun r2 b2 g2 _ hb2 hr2 hi2 _ hc2 => ?_
      refine Prog.wp_mono ?_ (wp_settling ((hA.mono hb1).mono hb2) (fun e he => (List.mem_append.1 he).elim (hr1.mono hb2 e) (hr2 e)) hi2)
      rintro a g3 ⟨hb3, hc3, ha3, hi3, hl3⟩
      refine Yields.sortRecs.wp fun srt hs => (Yields.mapMAll (P := C.G) fun x _ => brood_yields _ _).wp fun l' hl' => ?_
      refine wp_evalBest hl'.1 hi3 fun r4 b4 g4 _ hb4 hr4 hi4 _ hc4 => ?_
      refine Prog.wp_mono ?_ (wp_settling (ha3.mono hb4) hr4 hi4)
      rintro a5 g5 ⟨hb5, hc5, ha5, hi5, hl5⟩
      refine (finish_quiet a5.1).wp fun s' hs' => ⟨fun hf => ?_, hi5.fit, hi5.eq, ?_, nofun⟩
      · rw [hs' hf]
        exact ⟨ha5, by omega⟩
      · have e1 : (List.ofFn cast).length = p.numBroadcast := List.length_ofFn
        have e2 := hl.2
        have e3 := hl'.2
        have e4 : ((List.finRange s.reef.length).filter fun j => ∀ i, c i ≠ j).length + p.numBroadcast = s.reef.length := by
          have hnd : (List.finRange s.reef.length).Nodup := List.nodup_finRange _
          rw [← List.toFinset_card_of_nodup (hnd.filter _)]
          have : ((List.finRange s.reef.length).filter fun j => ∀ i, c i ≠ j).toFinset = (Finset.univ.image c)ᶜ := by
            ext j; simp
          rw [this, Finset.card_compl, Finset.card_image_of_injective _ hc', Fintype.card_fin, Finset.card_univ, Fintype.card_fin]
          have := Fintype.card_le_of_injective c hc'
          simp only [Fintype.card_fin] at this
          omega
        simp only [List.length_map, List.length_take, hs.1.length_eq] at e2 e3
        change g.c + (N + min p.numAsexual N) ≤ g5.c
        omega

/-! ### C79: the number of iterations -/

section
variable {env : Env (Vec D)}

omit [Arith] in
/-- The iteration counter never decreases. -/
theorem iters_mono {α : Type} (env : Env (Vec D)) (q : Prog (Vec D) α) (w : World (Vec D)) : w.st.iters ≤ (q.run env w).2.st.iters := by
  refine run_relation env (fun a b => a.st.iters ≤ b.st.iters) (fun _ => le_rfl) (fun _ _ _ => le_trans) ?_ q w
  intro w o
  rcases stepOp_cases env w o with ⟨hs, -⟩ | ⟨hs, -⟩ | ⟨x, -, hs, -⟩
  · rw [hs]
  · rw [hs]; exact Nat.le_succ _
  · rw [hs]
    unfold evalTask
    split
    · exact le_rfl
    · cases env.obj w.st.evals x <;> simp

omit [Arith] in
theorem run_ok {α β : Type} {q : Prog (Vec D) α} {f : α → Prog (Vec D) β} {w w' : World (Vec D)} {b : β}
    (h : (q.bind f).run env w = (.ok b, w')) : ∃ a w1, w.st.iters ≤ w1.st.iters ∧ (f a).run env w1 = (.ok b, w') := by
  have hm := iters_mono env q w
  rw [Prog.run_bind] at h
  rcases hq : q.run env w with ⟨e | a, w1⟩
  · rw [hq] at h; cases h
  · rw [hq] at h hm; exact ⟨a, w1, hm, h⟩

/-- Whether the population is flattened depends on the iteration counter only. -/
theorem finish_run {reef : List (Vec D × Fl)} {s : St D} {w w' : World (Vec D)} (h : (finish p reef).run env w = (.ok s, w')) :
    p.k ≠ 0 ∧ (s.flat = true ↔ (w.st.iters + 1) % p.k = 0) ∧ w'.st = w.st := by
  unfold finish at h
  simp only [Prog.bind_def, Prog.run_bind, Prog.run_look] at h
  split at h
  · cases h
  · rename_i hk
    split at h
    · rename_i hm
      simp only [depredation, Prog.bind_def, Prog.run_bind] at h
      cases h
      exact ⟨hk, by simp [hm], rfl⟩
    · rename_i hm
      cases h
      exact ⟨hk, by simp [hm], rfl⟩

theorem iter_run {s : St D} {xb : Vec D} {fxb : Fl} {r : St D × Vec D × Fl} {w w' : World (Vec D)}
    (h : (iter B p s xb fxb).run env w = (.ok r, w')) (hi : w'.st.iters = w.st.iters) :
    s.flat = false ∧ p.k ≠ 0 ∧ (r.1.flat = true ↔ (w.st.iters + 1) % p.k = 0) := by
  unfold iter at h
  split at h
  · cases h
  · rename_i hf
    refine ⟨by simpa using hf, ?_⟩
    obtain ⟨_, w1, h1, h⟩ := run_ok h
    obtain ⟨_, w2, h2, h⟩ := run_ok h
    obtain ⟨_, w3, h3, h⟩ := run_ok h
    obtain ⟨_, w4, h4, h⟩ := run_ok h
    obtain ⟨_, w5, h5, h⟩ := run_ok h
    obtain ⟨_, w6, h6, h⟩ := run_ok h
    obtain ⟨_, w7, h7, h⟩ := run_ok h
    obtain ⟨a, w8, h8, h⟩ := run_ok h
    rw [Prog.bind_def, Prog.run_bind] at h
    rcases hq : (finish p a.1).run env w8 with ⟨e | s', w9⟩
    · rw [hq] at h; cases h
    · rw [hq] at h
      cases h
      obtain ⟨e1, e2, e3⟩ := finish_run hq
      have : w8.st.iters = w.st.iters := by rw [← hi, e3]
      rw [this] at e2
      exact ⟨e1, e2⟩

omit [Arith] in
theorem metBy_pointwise (env : Env (Vec D)) (trk : Prop) : MetBy ASO.Pointwise env trk := fun C _ _ hG _ _ x _ => by rw [hG]; trivial

theorem trace_flat {ncb : ℕ} {hist : List ((alg B N p).σ × Vec D × Fl)} {w : World (Vec D)} (ht : (alg B N p).Trace env ncb hist w) :
    w.st.iters ≤ p.k ∧ (w.st.iters = p.k → p.k ≠ 0 → ∀ r ∈ hist.head?, St.flat r.1 = true) := by
  have hcount := fun {hist w} (h : (alg B N p).Trace env ncb hist w) => ((verified B N p).trace_count env (metBy_pointwise _ _) h).1
  induction ht with
  | start h =>
    have := hcount (.start h)
    have h0 : (0 : ℕ) ≤ p.k := Nat.zero_le _
    simp only [List.length_singleton] at this
    exact ⟨by omega, fun h1 h2 => by omega⟩
  | @round r r' hist w w' hprev hs h ih =>
    obtain ⟨w1, w2, h1, h2, -, h4, -⟩ := round_iter h
    have e1 := hcount hprev
    have e2 := hcount (.round hprev hs h)
    have e3 : w'.st.iters = w2.st.iters + 1 := by rw [h4]; rfl
    simp only [List.length_cons] at e1 e2
    obtain ⟨i1, i2, i3⟩ := iter_run (B := B) (p := p) (env := env) h1 (by rw [h2]; omega)
    rw [h2] at i3
    have hlt : w.st.iters ≠ p.k := fun he => by
      have := ih.2 he i2 r (by simp)
      rw [i1] at this; cases this
    have := ih.1
    refine ⟨by omega, fun he _ r'' hr'' => ?_⟩
    simp only [List.head?_cons, Option.mem_def, Option.some.injEq] at hr''
    subst hr''
    refine i3.2 ?_
    rw [show w.st.iters + 1 = p.k by omega, Nat.mod_self]

/-- **C79.** Coral reefs optimization returns a result only if it is stopped after at most `k` iterations: in every other run an exception is raised. -/
theorem C79_iterations (B : Box D) (N : ℕ) (p : Par) (env : Env (Vec D)) (main : Bool) (ncb fuel : ℕ) (out : RunOut (Vec D)) (res : Vec D × Fl)
    (hrun : ((alg B N p).exec env main ncb fuel).1 = .ok out) (hres : out.result = some res) :
    ((alg B N p).exec env main ncb fuel).2.st.iters ≤ p.k := by
  rw [exec_eq] at hrun ⊢
  simp only at hrun
  split at hrun
  · rename_i r hr
    obtain ⟨hist, w, ht, -, hf⟩ := body_trace hr
    have := fireAll_st env ncb .afterRun w
    rw [hf] at this
    simp only at this ⊢
    rw [this]
    exact (trace_flat ht).1
  · split at hrun
    · cases hrun
    · cases hrun; cases hres

end

namespace Ex
open NiaPy.Ex

def par : Par := ⟨.fin (2 / 5), 2, .fin (1 / 2), .fin (9 / 25), 2, 2, 1⟩

end Ex

omit [Arith] in
/-- The hypotheses of `C79_iterations` are satisfiable: a run of `k` iterations. -/
example : letI := NiaPy.Ex.arith
    (match (alg (NiaPy.Ex.box 2) 4 Ex.par).exec (NiaPy.Ex.env2 (D := 2) 2) true 1 5 with
      | (.ok ⟨some (_, f), _⟩, w) => decide (f ≠ .pinf ∧ w.st.iters = 2 ∧ 20 < w.calls.length ∧ w.events.length = 6)
      | _ => false) = true := by decide +kernel

omit [Arith] in
/-- With one iteration more the same run raises. -/
theorem C79_raises : letI := NiaPy.Ex.arith
    ((alg (NiaPy.Ex.box 2) 4 Ex.par).exec (NiaPy.Ex.env2 (D := 2) 3) true 0 5).1 = .error .indexError := by
  have h : letI := NiaPy.Ex.arith
      (match ((alg (NiaPy.Ex.box 2) 4 Ex.par).exec (NiaPy.Ex.env2 (D := 2) 3) true 0 5).1 with | .error .indexError => true | _ => false) = true := by
    decide +kernel
  split at h
  · assumption
  · cases h

end NiaPy.CRO
