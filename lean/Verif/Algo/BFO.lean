import Verif.AlgTools
import Verif.Runs

/-!
# Bacterial foraging optimization (`niapy/algorithms/basic/bfo.py`)
-/

namespace NiaPy.BFO
open NiaPy
variable [Arith] {D N : ℕ}

/-- Parameters (bfo.py:108-139). -/
structure Par where
  nChemotactic : ℕ
  nSwim : ℕ
  nReproduction : ℕ
  probElimination : Fl
  stepSize : Fl
  swarming : Bool
  dAttract : Fl
  wAttract : Fl
  hRepel : Fl
  wRepel : Fl

/-- One bacterium: a row of `population`, its fitness, `cost` and `health`. -/
structure Cell (D : ℕ) where
  x : Vec D
  f : Fl
  cost : Fl
  health : Fl

/-- State of a run (bfo.py:164-187); `k`, `j` are the attributes `self.k`, `self.j` (bfo.py:104-106; `self.i` is never
read). The number of cells changes when the population is halved and doubled. -/
structure St (D : ℕ) where
  cells : List (Cell D)
  k : ℕ
  j : ℕ

/-- `init_population` (bfo.py:164-187). The counters are attributes of the object and keep their values `k0`, `j0` from an
earlier run. -/
def init (B : Box D) (N k0 j0 : ℕ) : Prog (Vec D) (St D) := do
  let (pop, fit) ← defaultNumpyInit B N
  return ⟨List.ofFn fun i => ⟨pop i, fit i, 0, 0⟩, k0, j0⟩

/-- `interaction` (bfo.py:189-205). -/
def interaction (p : Par) (x : Vec D) (cells : List (Cell D)) : Fl :=
  if p.swarming then
    let d : List Fl := cells.map fun c => norm2 fun j => x j - c.x j
    (d.map fun d => -p.dAttract * Arith.fn .exp (-p.wAttract * d)).foldl (· + ·) 0 +
      (d.map fun d => p.hRepel * Arith.fn .exp (-p.wRepel * d)).foldl (· + ·) 0
  else 0

/-- `random_direction` (bfo.py:207-218). -/
def randomDirection (D : ℕ) : Prog (Vec D) (Vec D) := do
  let d ← unifVec (fun _ : Fin D => (-1 : Fl)) (fun _ => 1)
  return fun j => d j / norm2 d

/-- State inside `run_iteration`. -/
structure Loc (D : ℕ) where
  cells : List (Cell D)
  xb : Vec D
  fxb : Fl

/-- One swim step of bacterium `i` in direction `dir` (bfo.py:253-261); no generator is passed to `task.repair`. -/
def swimStep (p : Par) (dir : Vec D) (i : ℕ) (s : Loc D) : Prog (Vec D) (Loc D × Fl) :=
  match s.cells[i]? with
  | none => .throw .indexError
  | some c => do
    let y ← Prog.repair (fun j => c.x j + p.stepSize * dir j) false
    let v ← Prog.eval y
    let b := betterLt y v s.xb s.fxb
    let cost := v + interaction p y (s.cells.set i { c with x := y, f := v })
    return (⟨s.cells.set i ⟨y, v, cost, c.health + cost⟩, b.1, b.2⟩, cost)

/-- `while True` of the chemotaxis (bfo.py:252-265); `n` more steps are allowed after this one. -/
def swim (p : Par) (dir : Vec D) (i : ℕ) (jLast : Fl) : ℕ → Loc D → Prog (Vec D) (Loc D)
  | 0, s => do
    let (s, _) ← swimStep p dir i s
    return s
  | n + 1, s => do
    let (s, cost) ← swimStep p dir i s
    if jLast ≤ cost then return s else swim p dir i jLast n s

/-- Chemotaxis of bacterium `i` (bfo.py:246-265). -/
def chemotaxis (p : Par) (i : ℕ) (s : Loc D) : Prog (Vec D) (Loc D) :=
  match s.cells[i]? with
  | none => .throw .indexError
  | some c => do
    let cost := c.f + interaction p c.x s.cells
    let dir ← randomDirection D
    swim p dir i cost p.nSwim { s with cells := s.cells.set i { c with cost := cost } }

/-- Reproduction (bfo.py:274-283): the healthier half, twice. -/
def reproduce (N : ℕ) (cells : List (Cell D)) : Prog (Vec D) (List (Cell D)) := do
  let si ← Prog.argsort (cells.map (·.health))
  let half := (si.filterMap (cells[·]?)).take (N / 2)
  return (half ++ half).map fun c => { c with health := 0 }

/-- Elimination and dispersal of bacterium `i` (bfo.py:290-296). The new point is not repaired. -/
def eliminate (B : Box D) (p : Par) (i : ℕ) (s : Loc D) : Prog (Vec D) (Loc D) := do
  let r ← Prog.rand
  if r < p.probElimination then
    match s.cells[i]? with
    | none => .throw .indexError
    | some c => do
      let u ← randVec D
      let y : Vec D := fun j => B.lo j + u j * (B.hi j - B.lo j)
      let v ← Prog.eval y
      let b := betterLt y v s.xb s.fxb
      return ⟨s.cells.set i { c with x := y, f := v }, b.1, b.2⟩
  else return s

/-- `run_iteration` (bfo.py:220-298). -/
def iter (B : Box D) (N : ℕ) (p : Par) (s : St D) (xb : Vec D) (fxb : Fl) : Prog (Vec D) (St D × Vec D × Fl) := do
  let l ← forList (List.range s.cells.length) (chemotaxis p) ⟨s.cells, xb, fxb⟩
  let (cells, k, j) ← (if p.nChemotactic ≤ s.k + 1 then do
      let cells ← reproduce N l.cells
      return (cells, 0, s.j + 1)
    else return (l.cells, s.k + 1, s.j))
  if p.nReproduction ≤ j then do
    let l ← forList (List.range cells.length) (eliminate B p) { l with cells := cells }
    return (⟨l.cells, k, 0⟩, l.xb, l.fxb)
  else return (⟨cells, k, j⟩, l.xb, l.fxb)

/-- Bacterial foraging optimization with population size `N` (bfo.py). -/
def alg (B : Box D) (N : ℕ) (p : Par) (k0 j0 : ℕ) : Alg (Vec D) where
  σ := St D
  init := init B N k0 j0
  pop s := s.cells.map (·.x)
  fit s := s.cells.map (·.f)
  iter := iter B N p

variable {C : Ctx (Vec D)} {g : Ghost (Vec D)}

/-- Invariant inside an iteration. -/
structure Ok (C : Ctx (Vec D)) (s : Loc D) (g : Ghost (Vec D)) : Prop where
  fit : ∀ c ∈ s.cells, C.Fit g.b c.x c.f
  inc : Inc C s.xb s.fxb g

theorem Ok.set {s : Loc D} (h : Ok C s g) (i : ℕ) {c : Cell D} (hc : C.Fit g.b c.x c.f) : Ok C { s with cells := s.cells.set i c } g :=
  ⟨fun c' hc' => by
    rcases List.mem_or_eq_of_mem_set hc' with h' | rfl
    · exact h.fit c' h'
    · exact hc, h.inc⟩

theorem Ok.eval {s : Loc D} (h : Ok C s g) (i : ℕ) {y : Vec D} {v : Fl} (hv : C.F y v) (cost health : Fl) :
    Ok C ⟨s.cells.set i ⟨y, v, cost, health⟩, (betterLt y v s.xb s.fxb).1, (betterLt y v s.xb s.fxb).2⟩ (g.eval v) :=
  ⟨fun c' hc' => by
    rcases List.mem_or_eq_of_mem_set hc' with h' | rfl
    · exact (h.fit c' h').eval v
    · exact .new hv, h.inc.betterLt hv⟩

theorem wp_swimStep (hent : C.ent) {p : Par} {dir : Vec D} {i : ℕ} {s : Loc D} (h : Ok C s g) :
    (swimStep p dir i s).wp C (fun r g' => Ok C r.1 g' ∧ r.1.cells.length = s.cells.length ∧ g'.c = g.c + 1) g := by
  unfold swimStep
  split
  · exact nofun
  · simp only [Prog.wp_bind', Prog.wp_repair, Prog.wp_eval]
    refine ⟨Or.inr hent, fun y hy _ => ⟨hy, fun v hv => ⟨h.eval i hv _ _, by simp, rfl⟩⟩⟩

theorem wp_swim (hent : C.ent) {p : Par} {dir : Vec D} {i : ℕ} {jLast : Fl} {n : ℕ} {s : Loc D} (h : Ok C s g) :
    (swim p dir i jLast n s).wp C (fun r g' => Ok C r g' ∧ r.cells.length = s.cells.length ∧ g.c + 1 ≤ g'.c ∧
      g'.c ≤ g.c + (n + 1)) g := by
  induction n generalizing s g with
  | zero =>
    simp only [swim, Prog.wp_bind']
    refine Prog.wp_mono (fun r g' h' => ⟨h'.1, h'.2.1, ?_⟩) (wp_swimStep hent h)
    omega
  | succ n ih =>
    simp only [swim, Prog.wp_bind']
    refine Prog.wp_mono (fun r g' h' => ?_) (wp_swimStep hent h)
    rw [wp_ite]
    refine ⟨fun _ => ⟨h'.1, h'.2.1, by omega⟩, fun _ => ?_⟩
    refine Prog.wp_mono (fun r' g'' h'' => ⟨h''.1, h''.2.1.trans h'.2.1, by omega⟩) (ih h'.1)

theorem randomDirection_quiet : Quiet C (randomDirection D) := by
  unfold randomDirection
  yields

theorem wp_chemotaxis (hent : C.ent) {p : Par} {i : ℕ} {s : Loc D} (h : Ok C s g) :
    (chemotaxis p i s).wp C (fun r g' => Ok C r g' ∧ r.cells.length = s.cells.length ∧ g.c + 1 ≤ g'.c ∧
      g'.c ≤ g.c + (p.nSwim + 1)) g := by
  unfold chemotaxis
  split
  · exact nofun
  · rename_i c hc
    simp only [Prog.wp_bind']
    refine randomDirection_quiet.wp fun d _ => ?_
    refine Prog.wp_mono (fun r g' h' => ⟨h'.1, by rw [h'.2.1]; simp, h'.2.2⟩) (wp_swim hent (h.set i ?_))
    exact h.fit c (List.mem_of_getElem? hc)

theorem wp_eliminate {B : Box D} (hG : ∀ x, Sampled B x → C.G x) {p : Par} {i : ℕ} {s : Loc D} (h : Ok C s g) :
    (eliminate B p i s).wp C (fun r g' => Ok C r g' ∧ r.cells.length = s.cells.length ∧ g.c ≤ g'.c ∧ g'.c ≤ g.c + 1) g := by
  simp only [eliminate, Prog.wp_bind', Prog.wp_rand]
  intro r _ _
  rw [wp_ite]
  refine ⟨fun _ => ?_, fun _ => ⟨h, rfl, by omega⟩⟩
  split
  · exact nofun
  · simp only [Prog.wp_bind']
    refine wp_randVec_of fun u hu => ?_
    rw [Prog.wp_eval]
    refine ⟨hG _ ⟨u, hu, rfl⟩, fun v hv => ⟨h.eval i hv _ _, by simp, ?_⟩⟩
    simp [Ghost.eval]

theorem forall₂_cells {b : Fl} {cells : List (Cell D)} (h : ∀ c ∈ cells, C.Fit b c.x c.f) :
    List.Forall₂ (C.Fit b) (cells.map (·.x)) (cells.map (·.f)) := by
  induction cells with
  | nil => exact .nil
  | cons c cs ih => exact .cons (h c (by simp)) (ih fun c' hc' => h c' (by simp [hc']))

/-- Obligations of bacterial foraging (`lower + r * range` is not repaired): at least one evaluation per bacterium and
iteration, `2 * (N / 2)` bacteria at least; at most `n_swim + 2` per bacterium. -/
theorem verified (B : Box D) (N : ℕ) (p : Par) (k0 j0 : ℕ) :
    Verified (alg B N p k0 j0) (fun x => B.Mem x ∨ Sampled B x) false true ⟨N, 2 * (N / 2), some (N * (p.nSwim + 2))⟩ := by
  refine ⟨fun C s b => (∀ c ∈ s.cells, C.Fit b c.x c.f) ∧ 2 * (N / 2) ≤ s.cells.length ∧ s.cells.length ≤ N,
    fun C hG hent _ => ⟨fun s b h => forall₂_cells h.1, fun g hg => ?_, ?_⟩⟩
  · simp only [alg, init, Prog.wp_bind']
    refine Prog.wp_mono (fun r g' h => ?_) (wp_defaultNumpyInit (fun x hx => hG x (.inl hx)) (Cov.pinf hg fun _ => False))
    refine ⟨⟨?_, by simp; omega⟩, h.2.2.2.1.mono fun u hu => ?_, h.2.2.2.2⟩
    · intro c hc
      simp only [List.mem_ofFn] at hc
      obtain ⟨i, rfl⟩ := hc
      exact h.2.2.1 i
    · obtain ⟨i, rfl⟩ := mem_ofFn_iff.1 (hu.resolve_left id)
      simp
  · intro s xb fxb g hI hF hc
    simp only [alg, iter, Prog.wp_bind']
    have hmono : ∀ a b : ℕ, a ≤ b → ∀ n, a * n ≤ b * n := fun a b h n => Nat.mul_le_mul_right n h
    refine Prog.wp_mono ?_ (wp_forList_idx (fun k a g' => Ok C a g' ∧ a.cells.length = s.cells.length ∧ g.c + k ≤ g'.c ∧
      g'.c ≤ g.c + k * (p.nSwim + 1)) ⟨⟨hI.1, ⟨hF, hc⟩⟩, rfl, by simp⟩ ?_)
    · rintro l g1 ⟨h1, h2, h3, h4⟩
      rw [List.length_range] at h3 h4
      have hb := hmono _ _ hI.2.2 (p.nSwim + 1)
      have hN : N * (p.nSwim + 2) = N * (p.nSwim + 1) + N := by rw [show p.nSwim + 2 = (p.nSwim + 1) + 1 by rfl, Nat.mul_succ]
      -- what happens after reproduction
      have key : ∀ cells : List (Cell D), (∀ c ∈ cells, C.Fit g1.b c.x c.f) → 2 * (N / 2) ≤ cells.length → cells.length ≤ N →
          ∀ k j, (if p.nReproduction ≤ j then do
              let l ← forList (List.range cells.length) (eliminate B p) { l with cells := cells }
              return ((⟨l.cells, k, 0⟩ : St D), l.xb, l.fxb)
            else return ((⟨cells, k, j⟩ : St D), l.xb, l.fxb) : Prog (Vec D) (St D × Vec D × Fl)).wp C
            (fun r g' => ((∀ c ∈ r.1.cells, C.Fit g'.b c.x c.f) ∧ 2 * (N / 2) ≤ r.1.cells.length ∧ r.1.cells.length ≤ N) ∧
              C.F r.2.1 r.2.2 ∧ (C.NN → r.2.2 = g'.b) ∧ (Cost.mk N (2 * (N / 2)) (some (N * (p.nSwim + 2)))).Ok g.c g'.c) g1 := by
        intro cells hcl hlo hhi k j
        rw [wp_ite]
        refine ⟨fun _ => ?_, fun _ => ⟨⟨hcl, hlo, hhi⟩, h1.inc.fit, h1.inc.eq, by simp only; omega, fun h hh => ?_⟩⟩
        · simp only [Prog.wp_bind']
          refine Prog.wp_mono ?_ (wp_forList_idx (fun k a g' => Ok C a g' ∧ a.cells.length = cells.length ∧ g1.c ≤ g'.c ∧
            g'.c ≤ g1.c + k) ⟨⟨hcl, h1.inc⟩, rfl, by simp⟩ ?_)
          · rintro l2 g2 ⟨e1, e2, e3, e4⟩
            rw [List.length_range] at e4
            refine ⟨⟨e1.fit, by simp only; omega, by simp only; omega⟩, e1.inc.fit, e1.inc.eq, by simp only; omega, fun h hh => ?_⟩
            cases hh; omega
          · rintro i _ k s' g' ⟨e1, e2, e3, e4⟩
            exact Prog.wp_mono (fun r g'' h => ⟨h.1, h.2.1.trans e2, by omega, by omega⟩) (wp_eliminate (fun x hx => hG x (.inr hx)) e1)
        · cases hh; omega
      rw [wp_ite]
      refine ⟨fun _ => ?_, fun _ => key _ h1.fit (by omega) (by omega) _ _⟩
      simp only [reproduce, Prog.wp_bind', Prog.wp_argsort]
      intro si hp _
      rw [List.length_map] at hp
      have hlen : (si.filterMap (l.cells[·]?)).length = l.cells.length := by
        have := (hp.filterMap (l.cells[·]?)).length_eq
        rw [this]
        have : (List.range l.cells.length).filterMap (l.cells[·]?) = l.cells := by
          exact filterMap_range _
        rw [this]
      have hhalf : ((si.filterMap (l.cells[·]?)).take (N / 2)).length = N / 2 := by
        rw [List.length_take, hlen]; omega
      refine key _ ?_ ?_ ?_ _ _
      · intro c hc
        simp only [List.map_append, List.mem_append, List.mem_map, or_self] at hc
        obtain ⟨c', hc', rfl⟩ := hc
        have := List.mem_of_mem_take hc'
        rw [List.mem_filterMap] at this
        obtain ⟨a, -, ha⟩ := this
        exact h1.fit c' (List.mem_of_getElem? ha)
      · simp only [List.map_append, List.length_append, List.length_map, hhalf]; omega
      · simp only [List.map_append, List.length_append, List.length_map, hhalf]; omega
    · rintro i _ k s' g' ⟨e1, e2, e3, e4⟩
      refine Prog.wp_mono (fun r g'' h => ⟨h.1, h.2.1.trans e2, by omega, ?_⟩) (wp_chemotaxis (hent rfl) e1)
      rw [Nat.add_mul]; omega

/-! ## C90: a reused object -/

/-- Iterations since the last elimination and dispersal, as the counters have it. -/
def phase (p : Par) (k j : ℕ) : ℕ := j * p.nChemotactic + k

variable {env : Env (Vec D)}

omit [Arith] in
theorem run_ok {α β : Type} {q : Prog (Vec D) α} {f : α → Prog (Vec D) β} {w w' : World (Vec D)} {b : β}
    (h : (q.bind f).run env w = (.ok b, w')) : ∃ a w1, q.run env w = (.ok a, w1) ∧ (f a).run env w1 = (.ok b, w') := by
  rw [Prog.run_bind] at h
  rcases hq : q.run env w with ⟨e | a, w1⟩
  · rw [hq] at h; cases h
  · rw [hq] at h; exact ⟨a, w1, rfl, h⟩

/-- An iteration moves the counters one step further, whatever happens in it. -/
theorem iter_counters {B : Box D} {p : Par} {s : St D} {xb : Vec D} {fxb : Fl} {r : St D × Vec D × Fl} {w w' : World (Vec D)}
    (hc : 0 < p.nChemotactic) (hk : s.k < p.nChemotactic) (hj : s.j < p.nReproduction)
    (h : (iter B N p s xb fxb).run env w = (.ok r, w')) :
    r.1.k < p.nChemotactic ∧ r.1.j < p.nReproduction ∧
      phase p r.1.k r.1.j = (phase p s.k s.j + 1) % (p.nChemotactic * p.nReproduction) := by
  have hmul : ∀ a, a < p.nReproduction → a * p.nChemotactic + p.nChemotactic ≤ p.nChemotactic * p.nReproduction := fun a ha => by
    have := Nat.mul_le_mul_right p.nChemotactic (show a + 1 ≤ p.nReproduction by omega)
    rw [Nat.succ_mul, Nat.mul_comm p.nReproduction] at this
    exact this
  unfold iter at h
  obtain ⟨l, w1, -, h⟩ := run_ok h
  obtain ⟨⟨cells, k, j⟩, w2, h2, h⟩ := run_ok h
  simp only at h
  have key : k < p.nChemotactic ∧ ((s.k + 1 < p.nChemotactic ∧ k = s.k + 1 ∧ j = s.j) ∨
      (s.k + 1 = p.nChemotactic ∧ k = 0 ∧ j = s.j + 1)) := by
    split at h2
    · obtain ⟨c, w3, -, h2⟩ := run_ok h2
      cases h2
      exact ⟨hc, .inr ⟨by omega, rfl, rfl⟩⟩
    · cases h2
      exact ⟨by omega, .inl ⟨by omega, rfl, rfl⟩⟩
  have hm := hmul _ hj
  split at h
  · obtain ⟨c, w3, -, h⟩ := run_ok h
    cases h
    simp only [phase]
    refine ⟨key.1, by omega, ?_⟩
    rcases key.2 with ⟨e1, e2, e3⟩ | ⟨e1, e2, e3⟩
    · omega
    · have : s.j + 1 = p.nReproduction := by omega
      have : s.j * p.nChemotactic + s.k + 1 = p.nChemotactic * p.nReproduction := by
        rw [← this, Nat.mul_succ, Nat.mul_comm p.nChemotactic]; omega
      rw [this, Nat.mod_self, e2, Nat.zero_mul]
  · cases h
    simp only [phase]
    refine ⟨key.1, by omega, ?_⟩
    rcases key.2 with ⟨e1, e2, e3⟩ | ⟨e1, e2, e3⟩
    · subst e2 e3
      rw [Nat.mod_eq_of_lt (by omega)]; omega
    · subst e2 e3
      have := hmul (s.j + 1) (by omega)
      rw [Nat.succ_mul] at this ⊢
      rw [Nat.mod_eq_of_lt (by omega)]; omega

/-- The counters at the head of the `while` loop. -/
theorem trace_counters {B : Box D} {p : Par} {k0 j0 ncb : ℕ} (hk : k0 < p.nChemotactic) (hj : j0 < p.nReproduction)
    {hist : List ((alg B N p k0 j0).σ × Vec D × Fl)} {w : World (Vec D)} (ht : (alg B N p k0 j0).Trace env ncb hist w) :
    ∀ r ∈ hist.head?, St.k r.1 < p.nChemotactic ∧ St.j r.1 < p.nReproduction ∧
      phase p (St.k r.1) (St.j r.1) = (phase p k0 j0 + w.st.iters) % (p.nChemotactic * p.nReproduction) := by
  have hcount := fun {hist w} (h : (alg B N p k0 j0).Trace env ncb hist w) => ((verified B N p k0 j0).toIf.trace_count env (metBy_none _ _) h).1
  induction ht with
  | @start r w h =>
    have h0 : w.st.iters = 0 := by simpa using hcount (.start h)
    obtain ⟨w1, h1, -⟩ := start_init h
    obtain ⟨a, w2, -, h1⟩ := run_ok (q := defaultNumpyInit B N) h1
    have h1 : r.1 = (⟨_, k0, j0⟩ : St D) := (Except.ok.inj (congrArg Prod.fst h1)).symm
    rintro _ ⟨⟩
    rw [h1]
    refine ⟨hk, hj, ?_⟩
    simp only [phase, h0, Nat.add_zero]
    have := Nat.mul_le_mul_right p.nChemotactic (show j0 + 1 ≤ p.nReproduction by omega)
    rw [Nat.succ_mul, Nat.mul_comm p.nReproduction] at this
    rw [Nat.mod_eq_of_lt (by omega)]
  | @round r r' hist w w' hprev hs h ih =>
    obtain ⟨w1, w2, h1, -⟩ := round_iter h
    have e1 := hcount hprev
    have e2 := hcount (.round hprev hs h)
    simp only [List.length_cons] at e1 e2
    obtain ⟨i1, i2, i3⟩ := ih r (by simp)
    have := iter_counters (N := N) (B := B) (env := env) (by omega) i1 i2 h1
    rintro _ ⟨⟩
    refine ⟨this.1, this.2.1, ?_⟩
    rw [this.2.2, i3, Nat.mod_add_mod, show w'.st.iters = w.st.iters + 1 by omega, Nat.add_assoc]

/-- **C90.** When a run of bacterial foraging has ended after `T` iterations, the object's counters have gone `T` steps further (modulo
`n_chemotactic * n_reproduction`): they start where the run before left them, not at 0. -/
theorem C90_bfo (B : Box D) (N : ℕ) (p : Par) (k0 j0 : ℕ) (hk : k0 < p.nChemotactic) (hj : j0 < p.nReproduction) (env : Env (Vec D)) (ncb fuel : ℕ)
    (r : St D × Vec D × Fl) (h : ((alg B N p k0 j0).execBody env ncb fuel).1 = .ok r) :
    r.1.k < p.nChemotactic ∧ r.1.j < p.nReproduction ∧
      phase p r.1.k r.1.j = (phase p k0 j0 + ((alg B N p k0 j0).execBody env ncb fuel).2.st.iters) % (p.nChemotactic * p.nReproduction) := by
  obtain ⟨hist, w, ht, -, hf⟩ := body_trace h
  have := fireAll_st env ncb .afterRun w
  rw [hf] at this
  simp only at this ⊢
  rw [this]
  exact trace_counters hk hj ht r rfl

/-- Successive completed runs of one object (each with its own task and callbacks): the counters before and after, the iterations of the runs. -/
inductive Reused (B : Box D) (N : ℕ) (p : Par) (k0 j0 : ℕ) : ℕ → ℕ → List ℕ → Prop
  | new : Reused B N p k0 j0 k0 j0 []
  | run {k j : ℕ} {ts : List ℕ} (env : Env (Vec D)) (ncb fuel : ℕ) (r : St D × Vec D × Fl) : Reused B N p k0 j0 k j ts →
      ((alg B N p k j).execBody env ncb fuel).1 = .ok r →
      Reused B N p k0 j0 r.1.k r.1.j (((alg B N p k j).execBody env ncb fuel).2.st.iters :: ts)

theorem reused_counters {B : Box D} {p : Par} {k0 j0 k j : ℕ} {ts : List ℕ} (hk : k0 < p.nChemotactic) (hj : j0 < p.nReproduction)
    (h : Reused B N p k0 j0 k j ts) : k < p.nChemotactic ∧ j < p.nReproduction ∧
      phase p k j = (phase p k0 j0 + ts.sum) % (p.nChemotactic * p.nReproduction) := by
  induction h with
  | new =>
    refine ⟨hk, hj, ?_⟩
    simp only [phase, List.sum_nil, Nat.add_zero]
    have := Nat.mul_le_mul_right p.nChemotactic (show j0 + 1 ≤ p.nReproduction by omega)
    rw [Nat.succ_mul, Nat.mul_comm p.nReproduction] at this
    rw [Nat.mod_eq_of_lt (by omega)]
  | run env ncb fuel r hprev h ih =>
    have := C90_bfo B N p _ _ ih.1 ih.2.1 env ncb fuel r h
    refine ⟨this.1, this.2.1, ?_⟩
    rw [this.2.2, ih.2.2, Nat.mod_add_mod, List.sum_cons]
    congr 1
    omega

/-- **C90.** An object of bacterial foraging that has completed runs has the counters of a new one exactly if the number of all its iterations is a
multiple of `n_chemotactic * n_reproduction`; then its next run is that of a new object. -/
theorem C90_bfo_fresh (B : Box D) (N : ℕ) (p : Par) (hk : 0 < p.nChemotactic) (hj : 0 < p.nReproduction) (k j : ℕ) (ts : List ℕ)
    (h : Reused B N p 0 0 k j ts) : (k = 0 ∧ j = 0 ↔ p.nChemotactic * p.nReproduction ∣ ts.sum) ∧
      (p.nChemotactic * p.nReproduction ∣ ts.sum → alg B N p k j = alg B N p 0 0) := by
  have hc := reused_counters hk hj h
  have key : k = 0 ∧ j = 0 ↔ p.nChemotactic * p.nReproduction ∣ ts.sum := by
    rw [Nat.dvd_iff_mod_eq_zero]
    have h0 : phase p 0 0 = 0 := by simp [phase]
    rw [h0, Nat.zero_add] at hc
    rw [← hc.2.2]
    simp only [phase, Nat.add_eq_zero_iff, Nat.mul_eq_zero]
    omega
  refine ⟨key, fun hd => ?_⟩
  obtain ⟨rfl, rfl⟩ := key.2 hd
  rfl

namespace Ex

/-- Reproduction every two iterations, elimination of everything after every reproduction. -/
def par : Par := ⟨2, 1, 1, .fin 2, .fin (1 / 2), false, 0, 0, 0, 0⟩

end Ex

omit [Arith] in
/-- The hypotheses of `C90_bfo_fresh` are satisfiable: an object that has completed a run of three iterations. -/
example : letI := NiaPy.Ex.arith
    ∃ k j, Reused (NiaPy.Ex.box 1) 2 Ex.par 0 0 k j [3] := by
  letI := NiaPy.Ex.arith
  have h : (match (alg (NiaPy.Ex.box 1) 2 Ex.par 0 0).execBody (NiaPy.Ex.env2 3) 0 5 with
    | (.ok _, w) => decide (w.st.iters = 3) | _ => false) = true := by decide +kernel
  split at h
  · rename_i r w heq
    have := Reused.run (NiaPy.Ex.env2 3) 0 5 r (.new (B := NiaPy.Ex.box 1) (N := 2) (p := Ex.par) (k0 := 0) (j0 := 0)) (by rw [heq])
    rw [heq, show w.st.iters = 3 by simpa using h] at this
    exact ⟨_, _, this⟩
  · cases h

omit [Arith] in
/-- **C90 fails for bacterial foraging**: the counters a completed run of one iteration leaves behind (`k = 1`, `j = 0`) make the next run with the
same task, parameters and random numbers another one than that of a new object: it evaluates more solutions. -/
theorem C90_bfo_false : letI := NiaPy.Ex.arith
    ∃ k j, Reused (NiaPy.Ex.box 1) 2 Ex.par 0 0 k j [1] ∧
      ((alg (NiaPy.Ex.box 1) 2 Ex.par 0 0).exec (NiaPy.Ex.env2 1) true 0 5).2.calls.length <
        ((alg (NiaPy.Ex.box 1) 2 Ex.par k j).exec (NiaPy.Ex.env2 1) true 0 5).2.calls.length := by
  letI := NiaPy.Ex.arith
  have h : (match (alg (NiaPy.Ex.box 1) 2 Ex.par 0 0).execBody (NiaPy.Ex.env2 1) 0 5 with
    | (.ok r, w) => decide (w.st.iters = 1 ∧ St.k r.1 = 1 ∧ St.j r.1 = 0) | _ => false) = true := by decide +kernel
  split at h
  · rename_i r w heq
    obtain ⟨e1, e2, e3⟩ : w.st.iters = 1 ∧ St.k r.1 = 1 ∧ St.j r.1 = 0 := by simpa using h
    have := Reused.run (NiaPy.Ex.env2 1) 0 5 r (.new (B := NiaPy.Ex.box 1) (N := 2) (p := Ex.par) (k0 := 0) (j0 := 0)) (by rw [heq])
    rw [heq, e1] at this
    refine ⟨_, _, this, ?_⟩
    erw [e2, e3]
    decide +kernel
  · cases h

omit [Arith] in
/-- **C90 fails for `bad_run`**: after a run that failed in a worker thread (`population_size` 0) and one that returned a solution, `bad_run` still
says that an error was detected. -/
theorem C90_bad_run_false : letI := NiaPy.Ex.arith
    ∃ out res, ((alg (NiaPy.Ex.box 1) 2 Ex.par 0 0).exec (NiaPy.Ex.env2 1) false 0 5).1 = .ok out ∧ out.result = some res ∧
      badRunAfter [((alg (NiaPy.Ex.box 1) 0 Ex.par 0 0).exec (NiaPy.Ex.env2 1) false 0 5).1,
        ((alg (NiaPy.Ex.box 1) 2 Ex.par 0 0).exec (NiaPy.Ex.env2 1) false 0 5).1] = true := by
  letI := NiaPy.Ex.arith
  have h : (match ((alg (NiaPy.Ex.box 1) 2 Ex.par 0 0).exec (NiaPy.Ex.env2 1) false 0 5).1 with
    | .ok ⟨some _, _⟩ => true | _ => false) = true := by decide +kernel
  split at h
  · rename_i r e heq
    exact ⟨_, r, heq, rfl, by decide +kernel⟩
  · cases h

omit [Arith] in
/-- The hypotheses of `C90_bad_run_partial` are satisfiable, with a run that fails and with one that succeeds. -/
example : letI := NiaPy.Ex.arith
    ((alg (NiaPy.Ex.box 1) 0 Ex.par 0 0).execBody (NiaPy.Ex.env2 1) 0 5).1 ≠ .error .outOfFuel ∧
      ((alg (NiaPy.Ex.box 1) 2 Ex.par 0 0).execBody (NiaPy.Ex.env2 1) 0 5).1 ≠ .error .outOfFuel := by
  letI := NiaPy.Ex.arith
  have h1 : (match ((alg (NiaPy.Ex.box 1) 0 Ex.par 0 0).execBody (NiaPy.Ex.env2 1) 0 5).1 with
    | .error .valueError => true | _ => false) = true := by decide +kernel
  have h2 : (match ((alg (NiaPy.Ex.box 1) 2 Ex.par 0 0).execBody (NiaPy.Ex.env2 1) 0 5).1 with
    | .ok _ => true | _ => false) = true := by decide +kernel
  refine ⟨fun h => ?_, fun h => ?_⟩
  · rw [h] at h1; cases h1
  · rw [h] at h2; cases h2

end NiaPy.BFO
