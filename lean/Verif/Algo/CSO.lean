import Verif.Loose
import Verif.Runs

/-!
# Cat swarm optimization (`niapy/algorithms/basic/cso.py`)

A seeking cat writes the best of its copies, if it improves on the incumbent, over a random cat (cso.py:212-215) and then
moves to a copy chosen at random. If the random cat moves later in the same iteration, or is the seeking cat itself, the best
solution is lost.
-/

namespace NiaPy.CSO
open NiaPy
variable [Arith] {D N : ℕ}

/-- Parameters (cso.py:67-74). `cdc` and `mixture_ratio` are supposed not to be negative. -/
structure Par where
  mixture : Fl
  c1 : Fl
  smp : ℕ
  spc : Bool
  cdc : Fl
  srd : Fl
  maxV : Fl

/-- Number of copies evaluated by a seeking cat (cso.py:188). -/
def Par.copies (p : Par) : ℕ := if p.spc then p.smp - 1 else p.smp

/-- Number of tracing cats (cso.py:150). -/
def Par.tracing (p : Par) (N : ℕ) : ℕ := floorNat (Fl.ofNat N * p.mixture)

/-- State of a run. -/
structure St (D N : ℕ) where
  pop : Fin N → Vec D
  fit : Fin N → Fl
  vel : Fin N → Vec D

/-- `init_population` (cso.py:122-140). -/
def init (B : Box D) (N : ℕ) (p : Par) : Prog (Vec D) (St D N) := do
  let (pop, fit) ← defaultNumpyInit B N
  let vel ← tabM N fun _ => unifVec (fun _ => -p.maxV) fun _ => p.maxV
  return ⟨pop, fit, vel⟩

/-- `random_seek_trace` (cso.py:142-152): which cats trace. -/
def modes (p : Par) (N : ℕ) : Prog (Vec D) (Fin N → Bool) := do
  let idx ← choiceFin N (p.tracing N)
  return fun i => decide (∃ j, idx j = i)

/-- A copy of the cat, changed and evaluated (cso.py:189-198); repaired without passing on the generator. -/
def copy (p : Par) (cat : Vec D) : Prog (Vec D) (Vec D × Fl) := do
  let idx ← permIdx D
  let coin ← Prog.int 2
  let vary : Fin D → Prop := fun j => ∃ i : Fin D, i.val < floorNat (Fl.ofNat D * p.cdc) ∧ idx i = j
  let y : Vec D := fun j =>
    if vary j then (if coin = 1 then cat j + cat j * p.srd else cat j - cat j * p.srd) else cat j
  let x ← Prog.repair y false
  let f ← Prog.eval x
  return (x, f)

/-- `np.cumsum(w)[i]`. -/
def cumsum {n : ℕ} (w : Fin n → Fl) (i : Fin n) : Fl := ((List.ofFn w).take (i + 1)).foldl (· + ·) 0

/-- `weighted_selection` (cso.py:154-165); the first index if no other qualifies. -/
def select {n : ℕ} (w : Fin n → Fl) (i0 : Fin n) : Prog (Vec D) (Fin n) := do
  let r ← Prog.rand
  let last : Fin n := ⟨n - 1, by have := i0.2; omega⟩
  return ((List.finRange n).find? fun i => decide (r * cumsum w last ≤ cumsum w i)).getD ⟨0, i0.pos⟩

/-- The selection weights (cso.py:203-211); `worst` and `best` are the greatest and the smallest fitness. -/
def weights {n : ℕ} (fs : Fin n → Fl) (worst best : Fl) : Fin n → Fl :=
  if ∃ i j : Fin n, j.val = 0 ∧ (fs i).eqB (fs j) = false then
    if worst = .pinf ∨ worst = .ninf then fun _ => worst
    else fun i => Fl.abs (fs i - worst) / (worst - best)
  else fun _ => 1

/-- The best copy, if it improves on the incumbent, goes to a random cat (cso.py:212-215). -/
def share (x : Vec D) (f fxb : Fl) (s : St D N) : Prog (Vec D) (St D N) :=
  if f < fxb then do
    let ind ← intFin N
    return { s with pop := Function.update s.pop ind x, fit := Function.update s.fit ind f }
  else return s

/-- `seeking_mode` from line 203 on: the best copy may go to a random cat, then one copy is selected (cso.py:203-217). -/
def choose {n : ℕ} (cs : Fin n → Vec D × Fl) (fxb : Fl) (k : Fin N) (s : St D N) : Prog (Vec D) (St D N) := do
  let iw ← argmaxIdx fun i => (cs i).2
  let ib ← argminIdx fun i => (cs i).2
  let s ← share (cs ib).1 (cs ib).2 fxb s
  let sel ← select (weights (fun i => (cs i).2) (cs iw).2 (cs ib).2) ib
  return { s with pop := Function.update s.pop k (cs sel).1, fit := Function.update s.fit k (cs sel).2 }

/-- `seeking_mode` (cso.py:167-217) for cat `k`, together with the assignments in line 266. -/
def seek (p : Par) (fxb : Fl) (k : Fin N) (s : St D N) : Prog (Vec D) (St D N) := do
  let cs ← tabM p.copies fun _ => copy p (s.pop k)
  if p.spc then choose (Fin.snoc (α := fun _ => Vec D × Fl) cs (s.pop k, s.fit k)) fxb k s else choose cs fxb k s

/-- `np.clip(v, lo, hi)`. -/
def clip (v lo hi : Fl) : Fl := if v = .nan then .nan else if v < lo then lo else if hi < v then hi else v

/-- `tracing_mode` (cso.py:219-237) for cat `k`, together with the assignments in line 273. -/
def trace (p : Par) (xb : Vec D) (k : Fin N) (s : St D N) : Prog (Vec D) (St D N) := do
  let r ← randVec D
  let v : Vec D := fun j => clip (s.vel k j + r j * p.c1 * (xb j - s.pop k j)) (-p.maxV) p.maxV
  let x ← Prog.repair (fun j => s.pop k j + v j) false
  let f ← Prog.eval x
  return ⟨Function.update s.pop k x, Function.update s.fit k f, Function.update s.vel k v⟩

/-- `run_iteration` (cso.py:239-280). -/
def iter (p : Par) (s : St D N) (xb : Vec D) (fxb : Fl) : Prog (Vec D) (St D N × Vec D × Fl) := do
  let m ← modes p N
  let s' ← forFin N (fun k s => if m k then trace p xb k s else seek p fxb k s) s
  let b ← takeMin s'.pop s'.fit xb fxb
  return (s', b)

/-- Cat swarm optimization with population size `N` (cso.py). -/
def alg (B : Box D) (N : ℕ) (p : Par) : Alg (Vec D) where
  σ := St D N
  init := init B N p
  pop s := List.ofFn s.pop
  fit s := List.ofFn s.fit
  iter := iter p

/-- Evaluations per iteration. -/
def Par.cost (p : Par) (N : ℕ) : ℕ :=
  floorNat (Fl.ofNat N * p.mixture) + (N - floorNat (Fl.ofNat N * p.mixture)) * if p.spc then p.smp - 1 else p.smp

variable {C : Ctx (Vec D)} {g : Ghost (Vec D)}

/-- The individuals and their fitness belong together. -/
def Ok (C : Ctx (Vec D)) (s : St D N) : Prop := ∀ i, C.F (s.pop i) (s.fit i)

omit [Arith] in
theorem Ok.update {s : St D N} (h : Ok C s) {x : Vec D} {f : Fl} (hf : C.F x f) (k : Fin N) (v : Fin N → Vec D) :
    Ok C ⟨Function.update s.pop k x, Function.update s.fit k f, v⟩ := fun i => by
  by_cases hi : i = k
  · subst hi; simpa using hf
  · simpa [hi] using h i

theorem modes_yields (p : Par) : Yields C (modes p N : Prog (Vec D) (Fin N → Bool)) fun m =>
    ∑ i, (if m i then 1 else p.copies) = p.cost N := by
  refine .bind' Yields.choiceFin fun idx hidx => .pure' ?_
  have hcard : (Finset.univ.filter fun i => ∃ j, idx j = i).card = p.tracing N := by
    have : (Finset.univ.filter fun i => ∃ j, idx j = i) = Finset.univ.image idx := by ext i; simp
    rw [this, Finset.card_image_of_injective _ hidx, Finset.card_univ, Fintype.card_fin]
  have hcard' : (Finset.univ.filter fun i => ¬ ∃ j, idx j = i).card = N - p.tracing N := by
    have := Finset.card_filter_add_card_filter_not (s := (Finset.univ : Finset (Fin N))) (fun i => ∃ j, idx j = i)
    rw [Finset.card_univ, Fintype.card_fin, hcard] at this
    omega
  simp only [decide_eq_true_eq]
  rw [Finset.sum_ite, Finset.sum_const, Finset.sum_const, hcard, hcard', smul_eq_mul, smul_eq_mul, Nat.mul_one]
  rfl

theorem copy_wp (hent : C.ent) (p : Par) (cat : Vec D) {Q : Vec D × Fl → Ghost (Vec D) → Prop}
    (h : ∀ r g', C.F r.1 r.2 → g'.c = g.c + 1 → Q r g') : (copy p cat).wp C Q g := by
  simp only [copy, Prog.wp_bind']
  refine Yields.permIdx.wp fun idx _ => Yields.int.quiet.wp fun coin _ => ?_
  refine (Yields.repairE hent).wp fun x hx => ?_
  rw [Prog.wp_eval]
  exact ⟨hx, fun f hf => h _ _ hf rfl⟩

theorem share_yields {x : Vec D} {f fxb : Fl} {s : St D N} (hs : Ok C s) (hf : C.F x f) : Yields C (share x f fxb s) (Ok C) := by
  unfold share
  exact .ite (fun _ => .bind' Yields.intFin fun i _ => .pure' (hs.update hf i _)) fun _ => .pure' hs

theorem select_quiet {n : ℕ} (w : Fin n → Fl) (i0 : Fin n) : Quiet C (select w i0 : Prog (Vec D) (Fin n)) := by
  unfold select
  yields

theorem choose_yields {n : ℕ} {cs : Fin n → Vec D × Fl} (fxb : Fl) (k : Fin N) {s : St D N} (hcs : ∀ i, C.F (cs i).1 (cs i).2) (hs : Ok C s) :
    Yields C (choose cs fxb k s) (Ok C) := by
  unfold choose
  refine .bind' ⟨fun g => wp_argmaxIdx fun i _ => ⟨trivial, rfl⟩⟩ fun iw (_ : True) => .bind' ⟨fun g => wp_argminIdx fun i _ => ⟨trivial, rfl⟩⟩ fun ib (_ : True) => ?_
  exact .bind' (share_yields hs (hcs ib)) fun s hs => .bind' (select_quiet ..) fun sel _ => .pure' (hs.update (hcs sel) k _)

theorem seek_wp (hent : C.ent) (p : Par) (fxb : Fl) (k : Fin N) {s : St D N} (hs : Ok C s) :
    (seek p fxb k s).wp C (fun s' g' => Ok C s' ∧ g'.c = g.c + p.copies) g := by
  simp only [seek, Prog.wp_bind']
  refine Prog.wp_mono (fun cs g' h => ?_) (wp_tabM (fun n g' => g'.c = g.c + n) (fun _ (r : Vec D × Fl) => C.F r.1 r.2) rfl
    fun i g' h => copy_wp hent p (s.pop k) fun r g'' h1 h2 => ⟨by omega, h1⟩)
  split
  · refine (choose_yields fxb k (fun i => ?_) hs).wp fun s' hs' => ⟨hs', h.1⟩
    refine Fin.lastCases ?_ (fun i => ?_) i
    · simpa using hs k
    · simpa using h.2 i
  · exact (choose_yields fxb k h.2 hs).wp fun s' hs' => ⟨hs', h.1⟩

theorem trace_wp (hent : C.ent) (p : Par) (xb : Vec D) (k : Fin N) {s : St D N} (hs : Ok C s) :
    (trace p xb k s).wp C (fun s' g' => Ok C s' ∧ g'.c = g.c + 1) g := by
  simp only [trace, Prog.wp_bind']
  refine Yields.randVec.quiet.wp fun r _ => (Yields.repairE hent).wp fun x hx => ?_
  rw [Prog.wp_eval]
  exact ⟨hx, fun f hf => ⟨hs.update hf k _, rfl⟩⟩

/-- The obligations of cat swarm optimization. -/
theorem verified (B : Box D) (N : ℕ) (p : Par) : VerifiedIf NoTracking (alg B N p) B.Mem false true (.exact N (p.cost N)) := by
  refine ⟨fun C s _ => Ok C s, fun C hC hG hent _ => AlgOK.toW ⟨fun s b h => forall₂_ofFn fun i => hC.fit (h i), fun g hg => ?_, ?_⟩⟩
  · simp only [alg, init, Prog.wp_bind']
    refine wp_initArr hG hg fun r g' _ _ h3 h4 h5 => ?_
    exact Yields.wp (P := fun _ => True) (by yields) fun v _ => ⟨fun i => (h3 i).1, h4, h5⟩
  · intro s xb fxb g hI hF _
    simp only [alg, iter, Prog.wp_bind']
    refine (modes_yields p).wp fun m hm => ?_
    refine Prog.wp_mono (fun s' g' h => ?_) (wp_forFin_sum (Ok C) (fun i => if m i then 1 else p.copies) hI fun k s g hs => ?_)
    · exact wp_takeMin h.1 hF fun b hb => ⟨h.1, hb, hC.eq, Cost.ok_exact (hm ▸ h.2)⟩
    · split
      · rename_i h; simpa [h] using trace_wp (hent rfl) p xb k hs
      · rename_i h; simpa [h] using seek_wp (hent rfl) p fxb k hs

theorem dominates (B : Box D) (N : ℕ) (p : Par) : Dominates (alg B N p) := by
  intro env s xb fxb
  refine .bind' .any fun v _ => .bind' .any fun s' _ => .bind' Post.takeMin fun b hb => .pure' ⟨hb.1, fun hx hn f hf => ?_⟩
  obtain ⟨i, rfl⟩ := mem_ofFn_iff.1 hf
  exact hb.2 hx (fun i => hn _ (mem_ofFn_iff.2 ⟨i, rfl⟩)) i

/-! ### C58 -/

namespace Ex
open NiaPy.Ex

/-- The parameters. -/
def par : Par := ⟨.fin (1 / 10), .fin 2, 3, true, .fin 1, .fin (1 / 5), .fin 2⟩

/-- The cat starts at 1; its copies are at 4/5 and 6/5; it stays where it is. -/
def draws : Draws where
  unif k := if k = 0 then 1 else 0
  int k := if k = 6 then 1 else 0
  rand _ := 9 / 10

/-- One iteration. -/
def env : Env (Vec 1) := NiaPy.Ex.env sphere .minimization none (some 1) none draws fun _ _ x i => clip1 (x i)

end Ex

omit [Arith] in
/-- C58 is false of cat swarm optimization: a single cat evaluates a copy with fitness 16/25, but selects itself; the run
returns 1. -/
theorem C58_cso_false : ∃ env : Env (Vec 1), NoNaN env ∧ (@alg NiaPy.Ex.arith 1 (NiaPy.Ex.box 1) 1 Ex.par).LosesBest env :=
  ⟨Ex.env, NiaPy.Ex.sphere_noNaN rfl, .of (fuel := 5) (f := .fin 1) (b := .fin (16 / 25)) (by decide +kernel) (by decide +kernel)⟩

example : ∃ hist w, (@alg NiaPy.Ex.arith 1 (NiaPy.Ex.box 1) 3 Ex.par).Trace NiaPy.Ex.env2 1 hist w ∧ hist.length = 3 := by
  letI := NiaPy.Ex.arith
  exact (verified (NiaPy.Ex.box 1) 3 Ex.par).exists_trace NiaPy.Ex.env2 (metBy_noTracking _) (fuel := 5) (by decide +kernel)

end NiaPy.CSO
