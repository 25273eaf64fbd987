import Verif.Loose
import Verif.Runs
import Verif.RepairProps
import Verif.Congr
import Mathlib.Tactic.Linarith
import Mathlib.Tactic.Positivity
import Mathlib.Data.Nat.Sqrt
import Mathlib.Data.Rat.Floor

/-!
# Fireworks algorithms (`niapy/algorithms/basic/fwa.py`)

The bare-bones fireworks algorithm, the fireworks algorithm and the enhanced fireworks algorithm; the dynamic ones are in
`DynFWA.lean`.
-/

namespace NiaPy.FWA
open NiaPy
variable [Arith] {D N : ℕ}

/-! ### Bare-bones fireworks algorithm -/

/-- Parameters of `BareBonesFireworksAlgorithm` (fwa.py:62-75). -/
structure BBPar where
  num : ℕ
  up : Fl
  down : Fl

/-- State of a run. `row` tells whether `population` is a matrix with one row (and `population_fitness` an array with one
entry): it is until the first improvement, fwa.py:154-155. -/
structure BBSt (D : ℕ) where
  x : Vec D
  f : Fl
  amp : Vec D
  row : Bool

/-- `init_population` (fwa.py:108-124). -/
def bbInit (B : Box D) : Prog (Vec D) (BBSt D) := do
  let (pop, fit) ← defaultNumpyInit B 1
  return ⟨pop 0, fit 0, fun j => B.hi j - B.lo j, true⟩

/-- `run_iteration` (fwa.py:126-159). What is returned as best solution is a copy of `population`, matrix or not. -/
def bbIter (p : BBPar) (s : BBSt D) (_xb : Vec D) (_fxb : Fl) : Prog (Vec D) (BBSt D × Vec D × Fl) := do
  let ys ← tabM p.num fun _ => unifVec (fun j => s.x j - s.amp j) fun j => s.x j + s.amp j
  let xs ← repairRows ys true
  let fs ← evalRows xs
  let i ← argminIdx fs
  return if fs i < s.f then (⟨xs i, fs i, fun j => p.up * s.amp j, false⟩, xs i, fs i)
    else ({ s with amp := fun j => p.down * s.amp j }, s.x, s.f)

/-- The bare-bones fireworks algorithm (fwa.py:14-159). -/
def bbAlg (B : Box D) (p : BBPar) : Alg (Vec D) where
  σ := BBSt D
  init := bbInit B
  pop s := [s.x]
  fit s := [s.f]
  iter := bbIter p

/-! ### Fireworks algorithm -/

/-- Parameters of `FireworksAlgorithm` (fwa.py:203-221); `a` and `b` are supposed to be finite. -/
structure Par where
  num : ℕ
  a : Fl
  b : Fl
  maxAmp : Fl
  gauss : ℕ

/-- State of a run. -/
structure St (D N : ℕ) where
  pop : Fin N → Vec D
  fit : Fin N → Fl

/-- `np.finfo(float).eps` (fwa.py:221). -/
def eps : Fl := lit 1 4503599627370496

/-- `x.astype(int)`: truncation; NaN and infinities give the smallest integer (as on x86). -/
def toInt : Fl → ℤ
  | .fin q => if 0 ≤ q then ⌊q⌋ else ⌈q⌉
  | _ => -9223372036854775808

/-- `sparks_num` (fwa.py:261-277). -/
def sparksNum (p : Par) (fit : Fin N → Fl) : Prog (Vec D) (Fin N → ℤ) := do
  let iw ← argmaxIdx fit
  let total := (vsum fun i => fit iw - fit i) + eps
  let n : Fin N → Fl := fun i => Fl.ofNat p.num * (fit iw - fit i + eps) / total
  return fun i => toInt (
    if n i < p.a * Fl.ofNat p.num then Arith.fn .round (p.a * Fl.ofNat p.num)
    else if p.b * Fl.ofNat p.num < n i ∧ p.a < p.b ∧ p.b < 1 then Arith.fn .round (p.b * Fl.ofNat p.num)
    else Arith.fn .round (n i))

/-- `explosion_amplitudes` (fwa.py:279-293). -/
def amplitudes (p : Par) (fit : Fin N → Fl) : Prog (Vec D) (Fin N → Fl) := do
  let ib ← argminIdx fit
  let total := (vsum fun i => fit i - fit ib) + eps
  return fun i => p.maxAmp * (fit i - fit ib + eps) / total

/-- `x[z] = v` for different indices `z`. -/
def scatter {m : ℕ} (z : Fin m → Fin D) (v : Fin m → Fl) (x : Vec D) : Vec D := fun j =>
  match (List.finRange m).find? fun k => decide (z k = j) with
  | some k => v k
  | none => x j

/-- `rng.choice(task.dimension, rng.integers(task.dimension), replace=False)` (fwa.py:307, 323). -/
def someCoords (D : ℕ) : Prog (Vec D) ((m : Fin D) × (Fin m → Fin D)) := do
  let m ← intFin D
  let z ← choiceFin D m
  return ⟨m, z⟩

/-- `explosion_spark` before mapping (fwa.py:307-308). -/
def explode (amp : Fl) (x : Vec D) : Prog (Vec D) (Vec D) := do
  let z ← someCoords D
  let u ← Prog.unif (-1) 1
  return scatter z.2 (fun k => x (z.2 k) + amp * u) x

/-- `gaussian_spark` before mapping (fwa.py:323-324). -/
def gaussian (x : Vec D) : Prog (Vec D) (Vec D) := do
  let z ← someCoords D
  let u ← Prog.norm 1 1
  return scatter z.2 (fun k => x (z.2 k) * u) x

/-- The fireworks and their explosion sparks (fwa.py:407-416); a negative number of sparks raises `ValueError`. -/
def explosions (expl : Fin N → Vec D → Prog (Vec D) (Vec D)) (n : Fin N → ℤ) (pop : Fin N → Vec D) : Prog (Vec D) (List (Vec D)) :=
  if ∃ i, n i < 0 then .throw .valueError else do
    let l ← mapM' ((List.finRange N).flatMap fun i => List.replicate (n i).toNat i) fun i => expl i (pop i)
    return List.ofFn pop ++ l

/-- The Gaussian sparks are added (fwa.py:418-424). -/
def addGauss (gauss : Vec D → Prog (Vec D) (Vec D)) (m : ℕ) (l : List (Vec D)) : Prog (Vec D) (List (Vec D)) := do
  let idx ← choiceFin l.length m
  let gs ← mapM' ((List.ofFn idx).map l.get) gauss
  return l ++ gs

/-- `rng.choice(len(w), k, replace=False, p=w)`: different indices of positive weight; raises `ValueError` if a weight is NaN,
if there are not enough, or if there are no weights (they must sum to 1). -/
def choiceP {n : ℕ} (w : Fin n → Fl) (k : ℕ) : Prog (Vec D) (Fin k → Fin n) := do
  let p ← permIdx n
  let l := ((List.finRange n).map p).filter fun i => w i ≠ 0
  if h : ((∀ i, w i ≠ .nan) ∧ 0 < n) ∧ k ≤ l.length then return fun i => l.get (Fin.castLE h.2 i)
  else .throw .valueError

/-- `np.delete(sparks, best_index)` for the best spark (fwa.py:358-363): the best one and the others. -/
def splitBest (r : List (Vec D × Fl)) : Prog (Vec D) ((Vec D × Fl) × List (Vec D × Fl)) := do
  let i ← argminIdx fun i : Fin r.length => (r.get i).2
  return (r.get i, r.eraseIdx i)

/-- Selection probabilities (fwa.py:365-366). -/
def crowding (l : List (Vec D × Fl)) : Fin l.length → Fl :=
  let d : Fin l.length → Fl := fun j => vsum fun i => euclid (l.get i).1 (l.get j).1
  fun j => d j / vsum d

/-- `selection` (fwa.py:340-374). -/
def selection (N : ℕ) (sparks : List (Vec D)) : Prog (Vec D) (St D N × Vec D × Fl) := do
  let r ← evalRecs sparks
  let (b, rest) ← splitBest r
  let sel ← choiceP (crowding rest) (N - 1)
  let new : Fin N → Vec D × Fl := fun i => if h : i.val = 0 then b else rest.get (sel ⟨i - 1, by omega⟩)
  return (⟨fun i => (new i).1, fun i => (new i).2⟩, b.1, b.2)

/-- `init_population` (algorithm.py:246-264). -/
def init (B : Box D) (N : ℕ) : Prog (Vec D) (St D N) := do
  let (pop, fit) ← defaultNumpyInit B N
  return ⟨pop, fit⟩

/-- `run_iteration` (fwa.py:376-429). The previous best solution is not looked at. -/
def iter (B : Box D) (p : Par) (s : St D N) (_xb : Vec D) (_fxb : Fl) : Prog (Vec D) (St D N × Vec D × Fl) := do
  let n ← sparksNum p s.fit
  let amp ← amplitudes p s.fit
  let l ← explosions (fun i x => do let y ← explode (amp i) x; return Repair.reflect B y) n s.pop
  let l ← addGauss (fun x => do let y ← gaussian x; return Repair.reflect B y) p.gauss l
  selection N l

/-- The fireworks algorithm with population size `N` (fwa.py:162-429). -/
def alg (B : Box D) (N : ℕ) (p : Par) : Alg (Vec D) where
  σ := St D N
  init := init B N
  pop s := List.ofFn s.pop
  fit s := List.ofFn s.fit
  iter := iter B p

/-! ### Enhanced fireworks algorithm -/

/-- `mapping` of the enhanced algorithm (fwa.py:535-546): `repair.rand` with the generator of the algorithm
(repair.py:60-78). -/
def mapRand (B : Box D) (x : Vec D) : Prog (Vec D) (Vec D) :=
  tabM D fun j => if x j < B.lo j ∨ B.hi j < x j then Prog.unif (B.lo j) (B.hi j) else return x j

/-- `explosion_spark` of the enhanced algorithm before mapping (fwa.py:560-564). -/
def explodeE (amp x : Vec D) : Prog (Vec D) (Vec D) := do
  let z ← someCoords D
  let u ← tabM z.1 fun _ => Prog.unif (-1) 1
  return scatter z.2 (fun k => x (z.2 k) + amp (z.2 k) * u k) x

/-- `gaussian_spark` of the enhanced algorithm before mapping (fwa.py:579-581). -/
def gaussianE (xb x : Vec D) : Prog (Vec D) (Vec D) := do
  let z ← someCoords D
  let e ← Prog.norm 0 1
  return scatter z.2 (fun k => x (z.2 k) + (xb (z.2 k) - x (z.2 k)) * e) x

/-- The least amplitude (fwa.py:531). -/
def minAmp (a0 a1 : Fl) (v : TaskView) : Fl :=
  a0 - Arith.fn .sqrt (Fl.ofNat v.evals * (Fl.ofNat 2 * limF v.maxEvals - Fl.ofNat v.evals)) * (a0 - a1) / limF v.maxEvals

/-- `selection` of the enhanced algorithm (fwa.py:584-611). -/
def selectionE (s : St D N) (sparks : List (Vec D)) : Prog (Vec D) (St D N × Vec D × Fl) := do
  let r ← evalRecs sparks
  let b ← argminRec (·.2) r
  let new ← tabM N fun i => if i.val = 0 then return (if b.2 < s.fit i then b else (s.pop i, s.fit i)) else do
    let k ← intFin r.length
    return if (r.get k).2 < s.fit i then r.get k else (s.pop i, s.fit i)
  return (⟨fun i => (new i).1, fun i => (new i).2⟩, b.1, b.2)

/-- `run_iteration` of the enhanced algorithm (fwa.py:376-429 with 519-611); `a0` and `a1` are `amplitude_init` and
`amplitude_final`. -/
def iterE (B : Box D) (p : Par) (a0 a1 : Fl) (s : St D N) (xb : Vec D) (_fxb : Fl) : Prog (Vec D) (St D N × Vec D × Fl) := do
  let n ← sparksNum p s.fit
  let amp ← amplitudes p s.fit
  let v ← Prog.look
  let least := minAmp a0 a1 v
  let l ← explosions (fun i x => do let y ← explodeE (fun _ => if amp i < least then least else amp i) x; mapRand B y) n s.pop
  let l ← addGauss (fun x => do let y ← gaussianE xb x; mapRand B y) p.gauss l
  selectionE s l

/-- The enhanced fireworks algorithm with population size `N` (fwa.py:432-611). -/
def algE (B : Box D) (N : ℕ) (p : Par) (a0 a1 : Fl) : Alg (Vec D) where
  σ := St D N
  init := init B N
  pop s := List.ofFn s.pop
  fit s := List.ofFn s.fit
  iter := iterE B p a0 a1

variable {C : Ctx (Vec D)} {g : Ghost (Vec D)}

/-- The obligations of the bare-bones fireworks algorithm. -/
theorem bb_verified (B : Box D) (p : BBPar) : Verified (bbAlg B p) B.Mem true true (.exact 1 p.num) := by
  refine ⟨fun C s b => C.Fit b s.x s.f ∧ (C.NN → s.f = b), fun C hG hent _ =>
    ⟨fun s b h => .cons h.1 .nil, fun g hg => ?_, ?_⟩⟩
  · simp only [bbAlg, bbInit, Prog.wp_bind']
    refine wp_initArr hG hg fun r g' _ _ h3 h4 h5 => ?_
    have hc : Cov C (· = r.2 0) g' := h4.mono fun u hu => by simpa using hu
    exact ⟨⟨h3 0, (Inc.of_cov (h3 0) hc).eq⟩, h4.mono fun u hu => by simpa using hu, h5⟩
  · intro s xb fxb g hI hF hc
    simp only [bbAlg, bbIter, Prog.wp_bind']
    refine Yields.wp (P := fun _ => True) (by yields) fun ys _ => (Yields.repairRows (Or.inl rfl)).wp fun xs hxs => ?_
    have hinc : Inc C s.x s.f g := ⟨hI.1.1, hI.2⟩
    refine wp_evalRows hxs hinc.cov fun fs g' _ hb hf hcov hcnt => wp_argminIdx fun i hi => ?_
    have hnew := Inc.argminLt (pt := xs) (val := fs) (l := List.finRange p.num) (best := i) (List.mem_finRange i)
      (fun hn e _ => hi (fun j => hn j (List.mem_finRange j)) e) (fun e _ => hf e) (hinc.toFit.mono hb)
      (hcov.mono fun u hu => hu.imp_right fun ⟨e, he⟩ => ⟨e, List.mem_finRange e, he⟩)
    simp only [betterLt] at hnew
    by_cases hlt : fs i < s.f
    · simp only [hlt, if_true] at hnew ⊢
      exact ⟨⟨hf i, hnew.eq⟩, hnew.fit, hnew.eq, Cost.ok_exact hcnt⟩
    · simp only [hlt, if_false] at hnew ⊢
      exact ⟨⟨hI.1.mono hb, hnew.eq⟩, hnew.fit, hnew.eq, Cost.ok_exact hcnt⟩

theorem someCoords_quiet : Quiet C (someCoords D) := by unfold someCoords; yields

theorem explode_quiet (amp : Fl) (x : Vec D) : Quiet C (explode amp x) := by
  unfold explode
  exact .bind' someCoords_quiet fun z _ => by yields

theorem gaussian_quiet (x : Vec D) : Quiet C (gaussian x) := by
  unfold gaussian
  exact .bind' someCoords_quiet fun z _ => by yields

theorem explodeE_quiet (amp x : Vec D) : Quiet C (explodeE amp x) := by
  unfold explodeE
  exact .bind' someCoords_quiet fun z _ => by yields

theorem gaussianE_quiet (xb x : Vec D) : Quiet C (gaussianE xb x) := by
  unfold gaussianE
  exact .bind' someCoords_quiet fun z _ => by yields

theorem mapRand_yields (B : Box D) (hG : ∀ x, B.NotOut x → C.G x) (x : Vec D) : Yields C (mapRand B x) C.G := by
  refine .mono (.tabM (P := fun j y => ¬ y < B.lo j ∧ ¬ B.hi j < y) fun j => ?_) fun r h => hG r h
  refine .ite (fun _ => .mono Yields.unif fun y hy => ?_) fun h => .pure' (not_or.1 h)
  have := hy (B.le j)
  exact ⟨Fl.not_lt_of_le this.1, Fl.not_lt_of_le this.2⟩

theorem sparksNum_quiet (p : Par) (fit : Fin N → Fl) : Quiet C (sparksNum p fit : Prog (Vec D) _) := by
  unfold sparksNum
  exact .bind' ⟨fun g => wp_argmaxIdx fun i _ => ⟨trivial, rfl⟩⟩ fun iw (_ : True) => by yields

theorem amplitudes_quiet (p : Par) (fit : Fin N → Fl) : Quiet C (amplitudes p fit : Prog (Vec D) _) := by
  unfold amplitudes
  exact .bind' ⟨fun g => wp_argminIdx fun i _ => ⟨trivial, rfl⟩⟩ fun iw (_ : True) => by yields

/-- All sparks may be evaluated, and there are at least as many as fireworks. -/
def Sparks (C : Ctx (Vec D)) (m : ℕ) (l : List (Vec D)) : Prop := (∀ x ∈ l, C.G x) ∧ m ≤ l.length

theorem explosions_yields {expl : Fin N → Vec D → Prog (Vec D) (Vec D)} (he : ∀ i x, Yields C (expl i x) C.G) (n : Fin N → ℤ)
    {pop : Fin N → Vec D} (hp : ∀ i, C.G (pop i)) : Yields C (explosions expl n pop) (Sparks C N) := by
  unfold explosions
  refine .ite (fun _ => .throw nofun) fun _ => .bind' (.mapMAll fun i _ => he i (pop i)) fun l hl => .pure' ⟨fun x hx => ?_, ?_⟩
  · rcases List.mem_append.1 hx with hx | hx
    · obtain ⟨i, rfl⟩ := List.mem_ofFn.1 hx; exact hp i
    · exact hl.1 x hx
  · simp

theorem addGauss_yields {gauss : Vec D → Prog (Vec D) (Vec D)} (he : ∀ x, Yields C (gauss x) C.G) (m k : ℕ) {l : List (Vec D)}
    (hl : Sparks C k l) : Yields C (addGauss gauss m l) (Sparks C (k + m)) := by
  unfold addGauss
  refine .bind' Yields.choiceFin.quiet fun idx _ => .bind' (.mapMAll fun x _ => he x) fun gs hgs => .pure' ⟨fun x hx => ?_, ?_⟩
  · rcases List.mem_append.1 hx with hx | hx
    · exact hl.1 x hx
    · exact hgs.1 x hx
  · have := hl.2
    rw [List.length_append, hgs.2]
    simpa using this

omit [Arith] in
theorem choiceP_quiet {n : ℕ} (w : Fin n → Fl) (k : ℕ) : Quiet C (choiceP w k : Prog (Vec D) _) := by
  unfold choiceP
  refine .bind' Yields.permIdx fun p _ => ?_
  dsimp only
  split
  · exact .pure' trivial
  · exact .throw nofun

/-- What the fireworks algorithms assume: reflection gives points that may be evaluated. -/
def Reflects (B : Box D) (C : Ctx (Vec D)) : Prop := NoTracking C ∧ ∀ x, C.G (Repair.reflect B x)

/-- The obligations of the fireworks algorithm. -/
theorem verified (B : Box D) (N : ℕ) (p : Par) : VerifiedIf (Reflects B) (alg B N p) B.Mem true true ⟨N, N + p.gauss, none⟩ := by
  refine ⟨fun C s _ => ∀ i, C.F (s.pop i) (s.fit i) ∧ C.G (s.pop i), fun C hC hG _ _ =>
    AlgOK.toW ⟨fun s b h => forall₂_ofFn fun i => hC.1.fit (h i).1, fun g hg => ?_, ?_⟩⟩
  · simp only [alg, init, Prog.wp_bind']
    exact wp_initArr hG hg fun r g' _ h2 h3 h4 h5 => ⟨fun i => ⟨(h3 i).1, hG _ (h2 i)⟩, h4, h5⟩
  · intro s xb fxb g hI hF _
    simp only [alg, iter, selection, splitBest, Prog.wp_bind']
    refine (sparksNum_quiet ..).wp fun n _ => (amplitudes_quiet ..).wp fun amp _ => ?_
    refine (explosions_yields (fun i x => .bind' (explode_quiet _ x) fun y _ => .pure' (hC.2 y)) n fun i => (hI i).2).wp fun l hl => ?_
    refine (addGauss_yields (fun x => .bind' (gaussian_quiet x) fun y _ => .pure' (hC.2 y)) p.gauss N hl).wp fun l hl => ?_
    refine wp_evalRecs hl.1 hC.1.cov (S := fun _ => False) fun r g' _ _ hr _ hmap hcnt => wp_argminIdx fun i _ => ?_
    have hrG : ∀ e ∈ r, C.F e.1 e.2 ∧ C.G e.1 := fun e he => ⟨(hr e he).1, hl.1 _ (hmap ▸ List.mem_map_of_mem he)⟩
    simp only [Prog.wp_pure']
    refine (choiceP_quiet _ _).wp fun sel _ => ⟨fun k => ?_, (hrG _ (List.get_mem ..)).1, hC.1.eq, ?_, nofun⟩
    · by_cases hk : k.val = 0
      · simpa [hk] using hrG _ (List.get_mem ..)
      · simpa [hk] using hrG _ (List.mem_of_mem_eraseIdx (List.getElem_mem _))
    · have := hl.2; change g.c + (N + p.gauss) ≤ g'.c; omega

/-- What the enhanced algorithm assumes: points that are not outside the box may be evaluated. -/
def Inside (B : Box D) (C : Ctx (Vec D)) : Prop := NoTracking C ∧ ∀ x, B.NotOut x → C.G x

/-- The obligations of the enhanced fireworks algorithm. -/
theorem verifiedE (B : Box D) (N : ℕ) (p : Par) (a0 a1 : Fl) :
    VerifiedIf (Inside B) (algE B N p a0 a1) B.Mem true true ⟨N, N + p.gauss, none⟩ := by
  refine ⟨fun C s _ => ∀ i, C.F (s.pop i) (s.fit i) ∧ C.G (s.pop i), fun C hC hG _ _ =>
    AlgOK.toW ⟨fun s b h => forall₂_ofFn fun i => hC.1.fit (h i).1, fun g hg => ?_, ?_⟩⟩
  · simp only [algE, init, Prog.wp_bind']
    exact wp_initArr hG hg fun r g' _ h2 h3 h4 h5 => ⟨fun i => ⟨(h3 i).1, hG _ (h2 i)⟩, h4, h5⟩
  · intro s xb fxb g hI hF _
    simp only [algE, iterE, selectionE, Prog.wp_bind', Prog.wp_look]
    refine (sparksNum_quiet ..).wp fun n _ => (amplitudes_quiet ..).wp fun amp _ => fun v => ?_
    refine (explosions_yields (fun i x => .bind' (explodeE_quiet _ x) fun y _ => mapRand_yields B hC.2 y) n fun i => (hI i).2).wp fun l hl => ?_
    refine (addGauss_yields (fun x => .bind' (gaussianE_quiet xb x) fun y _ => mapRand_yields B hC.2 y) p.gauss N hl).wp fun l hl => ?_
    refine wp_evalRecs hl.1 hC.1.cov (S := fun _ => False) fun r g' _ _ hr _ hmap hcnt => wp_argminRec fun b hb _ => ?_
    have hrG : ∀ e ∈ r, C.F e.1 e.2 ∧ C.G e.1 := fun e he => ⟨(hr e he).1, hl.1 _ (hmap ▸ List.mem_map_of_mem he)⟩
    refine (Yields.tabM (P := fun _ (e : Vec D × Fl) => C.F e.1 e.2 ∧ C.G e.1) fun i => ?_).wp fun new hnew =>
      ⟨hnew, (hrG b hb).1, hC.1.eq, ?_, nofun⟩
    · refine .ite (fun _ => .pure' ?_) fun _ => .bind' Yields.intFin fun k _ => .pure' ?_
      · split
        · exact hrG b hb
        · exact hI i
      · split
        · exact hrG _ (List.get_mem ..)
        · exact hI i
    · have := hl.2; change g.c + (N + p.gauss) ≤ g'.c; omega

/-! ### C58, C29 -/

namespace Ex
open NiaPy.Ex

/-- The parameters. -/
def par : Par := ⟨2, .fin (1 / 2), .fin (4 / 5), .fin 1, 1⟩

/-- The fireworks start at 2 and 1. -/
def draws : Draws where
  unif k := if k = 0 then 2 else 1

/-- Three evaluations. -/
def env : Env (Vec 1) := NiaPy.Ex.env sphere .minimization (some 3) none none draws fun _ _ x i => clip1 (x i)

end Ex

omit [Arith] in
/-- C58 is false of the fireworks algorithm: the initial population of two contains a solution with fitness 1; the budget ends
after the first evaluation of the iteration, which gives 4, and this is what the run returns. -/
theorem C58_fwa_false : ∃ env : Env (Vec 1), NoNaN env ∧ (@alg NiaPy.Ex.arith 1 (NiaPy.Ex.box 1) 2 Ex.par).LosesBest env :=
  ⟨Ex.env, NiaPy.Ex.sphere_noNaN rfl, .of (fuel := 5) (f := .fin 4) (b := .fin 1) (by decide +kernel) (by decide +kernel)⟩

omit [Arith] in
/-- C58 is false of the enhanced fireworks algorithm for the same reason. -/
theorem C58_efwa_false : ∃ env : Env (Vec 1), NoNaN env ∧ (@algE NiaPy.Ex.arith 1 (NiaPy.Ex.box 1) 2 Ex.par 0 0).LosesBest env :=
  ⟨Ex.env, NiaPy.Ex.sphere_noNaN rfl, .of (fuel := 5) (f := .fin 4) (b := .fin 1) (by decide +kernel) (by decide +kernel)⟩

/-- The fitness of the incumbent before and after the first iteration, as a callback sees it. -/
def firstBests (A : Alg (Vec D)) (env : Env (Vec D)) (fuel : ℕ) : List Fl := (A.exec env true 1 fuel).2.events.filterMap (·.2.best)

omit [Arith] in
/-- C58 (monotonicity) is false of both: the incumbent a callback sees gets worse. -/
theorem C58_fwa_worse_false : firstBests (@alg NiaPy.Ex.arith 1 (NiaPy.Ex.box 1) 2 Ex.par) Ex.env 5 = [.fin 1, .fin 4] ∧
    firstBests (@algE NiaPy.Ex.arith 1 (NiaPy.Ex.box 1) 2 Ex.par 0 0) Ex.env 5 = [.fin 1, .fin 4] := by decide +kernel

/-- C58 (partial), every execution: what the fireworks algorithm returns from an iteration is the first individual, and no
individual is better. -/
theorem C58_fwa_partial (B : Box D) (N : ℕ) (p : Par) (env : Env (Vec D)) (s : St D (N + 1)) (xb : Vec D) (fxb : Fl) :
    Post env (iter B p s xb fxb) fun r => (r.1.pop 0, r.1.fit 0) = r.2 ∧ ((∀ i, r.1.fit i ≠ .nan) → ∀ i, r.2.2 ≤ r.1.fit i) := by
  unfold iter
  refine .bind' .any fun n _ => .bind' .any fun amp _ => .bind' .any fun l _ => .bind' .any fun l _ => ?_
  unfold selection
  refine .bind' .any fun r _ => .bind' (P := fun q => q.1.2 ≠ .nan → ∀ e ∈ q.2, q.1.2 ≤ e.2) ?_ fun q hq => ?_
  · refine .bind' (P := fun i : Fin r.length => (r.get i).2 ≠ .nan → ∀ j : Fin r.length, (r.get i).2 ≤ (r.get j).2)
      (.yields ⟨fun g => wp_argminIdx_le fun i h => ⟨h, rfl⟩⟩) fun i hi => .pure' fun hn e he => ?_
    obtain ⟨j, rfl⟩ := List.mem_iff_get.1 (List.mem_of_mem_eraseIdx he)
    exact hi hn j
  · obtain ⟨b, rest⟩ := q
    refine .bind' .any fun sel _ => .pure' ⟨by simp, fun hn i => ?_⟩
    have hb : b.2 ≠ .nan := by simpa using hn 0
    by_cases hi : i.val = 0
    · simpa [hi] using Fl.le_refl hb
    · simpa [hi] using hq hb _ (List.getElem_mem _)

/-! ### C60: explosions in one dimension -/

omit [Arith] in
theorem scatter_one (m : Fin 1) (z : Fin m → Fin 1) (v : Fin m → Fl) (x : Vec 1) : scatter z v x = x := by
  obtain ⟨m, hm⟩ := m
  obtain rfl : m = 0 := by omega
  funext j
  simp [scatter]

/-- C60 is false: an explosion in one dimension never changes anything, whatever the amplitude and the random numbers. -/
theorem C60_explode_false (env : Env (Vec 1)) (amp : Fl) (x : Vec 1) : Post env (explode amp x) (· = x) :=
  .bind' .any fun z _ => .bind' .any fun u _ => .pure' (scatter_one z.1 z.2 _ x)

/-- C60 is false also for Gaussian sparks. -/
theorem C60_gaussian_false (env : Env (Vec 1)) (x : Vec 1) : Post env (gaussian x) (· = x) :=
  .bind' .any fun z _ => .bind' .any fun u _ => .pure' (scatter_one z.1 z.2 _ x)

/-- C60 is false for the explosions of the enhanced and the dynamic algorithms. -/
theorem C60_explodeE_false (env : Env (Vec 1)) (amp x : Vec 1) : Post env (explodeE amp x) (· = x) :=
  .bind' .any fun z _ => .bind' .any fun u _ => .pure' (scatter_one z.1 z.2 _ x)

/-- C60 is false for their Gaussian sparks. -/
theorem C60_gaussianE_false (env : Env (Vec 1)) (xb x : Vec 1) : Post env (gaussianE xb x) (· = x) :=
  .bind' .any fun z _ => .bind' .any fun u _ => .pure' (scatter_one z.1 z.2 _ x)

theorem post_explosions {env : Env (Vec D)} {expl : Fin N → Vec D → Prog (Vec D) (Vec D)} {n : Fin N → ℤ} {pop : Fin N → Vec D}
    {P : Vec D → Prop} (hp : ∀ i, P (pop i)) (h : ∀ i x, P x → Post env (expl i x) P) :
    Post env (explosions expl n pop) fun l => ∀ x ∈ l, P x := by
  unfold explosions
  split
  · exact fun _ _ _ h => by cases h
  · refine .bind' (.mapMAll fun i _ => h i _ (hp i)) fun l hl => .pure' fun x hx => ?_
    rcases List.mem_append.1 hx with hx | hx
    · obtain ⟨i, rfl⟩ := List.mem_ofFn.1 hx; exact hp i
    · exact hl x hx

theorem post_addGauss {env : Env (Vec D)} {gauss : Vec D → Prog (Vec D) (Vec D)} {m : ℕ} {l : List (Vec D)} {P : Vec D → Prop}
    (hl : ∀ x ∈ l, P x) (h : ∀ x, P x → Post env (gauss x) P) : Post env (addGauss gauss m l) fun l => ∀ x ∈ l, P x := by
  refine .bind' .any fun idx _ => .bind' (.mapMAll fun x hx => h x ?_) fun gs hgs => .pure' fun x hx => ?_
  · obtain ⟨i, _, rfl⟩ := List.mem_map.1 hx
    exact hl _ (List.get_mem ..)
  · rcases List.mem_append.1 hx with hx | hx
    · exact hl x hx
    · exact hgs x hx

/-- The sparks are given to the selection, which keeps some of them. -/
theorem post_selection {env : Env (Vec D)} {l : List (Vec D)} {P : Vec D → Prop} (hl : ∀ x ∈ l, P x) :
    Post env (selection N l) fun r => ∀ i, P (r.1.pop i) := by
  refine .bind' .evalRecs fun r hr => .bind' (P := fun q => P q.1.1 ∧ ∀ e ∈ q.2, P e.1) ?_ fun q hq => ?_
  · exact .bind' .any fun i _ => .pure' ⟨hl _ (hr _ (List.get_mem ..)), fun e he => hl _ (hr _ (List.mem_of_mem_eraseIdx he))⟩
  · obtain ⟨b, rest⟩ := q
    refine .bind' .any fun sel _ => .pure' fun i => ?_
    by_cases hi : i.val = 0
    · simpa [hi] using hq.1
    · simpa [hi] using hq.2 _ (List.getElem_mem _)

/-- C60 is false of whole runs: in one dimension the fireworks algorithm never leaves the points of its initial population (here
`s0`; its points are within the bounds), in any execution. -/
theorem C60_fwa_false (B : Box 1) (N : ℕ) (p : Par) (env : Env (Vec 1)) {ncb : ℕ} {hist : List (St 1 N × Vec 1 × Fl)} {w : World (Vec 1)}
    (ht : (alg B N p).Trace env ncb hist w) (s0 : St 1 N) (xb : Vec 1) (fxb : Fl) (h0 : hist.getLast? = some (s0, xb, fxb))
    (hb : ∀ i, B.NotOut (s0.pop i)) : ∀ r ∈ hist, ∀ i, ∃ j, r.1.pop i = s0.pop j := by
  refine Alg.Trace.keep (A := alg B N p) ht (P := fun s => ∀ i, ∃ j, s.pop i = s0.pop j) (fun r hr i => ?_) fun r hr => ?_
  · have hr : hist.getLast? = some r := hr
    rw [h0] at hr; cases hr; exact ⟨i, rfl⟩
  · have hid : ∀ y : Vec 1, (∃ j, y = s0.pop j) → Repair.reflect B y = y := fun y ⟨j, hj⟩ => by
      subst hj; exact (Repair.C10_identity B env.rng 0 _ (hb j)).2.2.2.2
    change Post env (iter B p r.1 r.2.1 r.2.2) _
    refine .bind' .any fun n _ => .bind' .any fun amp _ => ?_
    refine .bind' (post_explosions (P := fun y => ∃ j, y = s0.pop j) hr fun i x hx => ?_) fun l hl => ?_
    · exact .bind' (C60_explode_false env _ x) fun y hy => .pure' (by subst hy; rw [hid _ hx]; exact hx)
    refine .bind' (post_addGauss hl fun x hx => ?_) fun l hl => post_selection hl
    exact .bind' (C60_gaussian_false env x) fun y hy => .pure' (by subst hy; rw [hid _ hx]; exact hx)

/-! C60, what holds: in two or more dimensions every coordinate can be displaced, though never all of them at once. -/

omit [Arith] in
theorem scatter_rest (m : Fin D) (z : Fin m → Fin D) (v : Fin m → Fl) (x : Vec D) : ∃ j, scatter z v x j = x j := by
  have : ¬ Function.Surjective z := fun h => by
    have := Fintype.card_le_of_surjective z h
    simp at this
    omega
  simp only [Function.Surjective, not_forall, not_exists] at this
  obtain ⟨j, hj⟩ := this
  refine ⟨j, ?_⟩
  have : (List.finRange m).find? (fun k => decide (z k = j)) = none := by
    rw [List.find?_eq_none]
    exact fun k _ => by simpa using hj k
  simp [scatter, this]

/-- Every spark agrees with its firework in at least one coordinate. -/
theorem C60_rest (env : Env (Vec D)) (amp : Fl) (av xb x : Vec D) : Post env (explode amp x) (fun y => ∃ j, y j = x j) ∧
    Post env (gaussian x) (fun y => ∃ j, y j = x j) ∧ Post env (explodeE av x) (fun y => ∃ j, y j = x j) ∧
    Post env (gaussianE xb x) (fun y => ∃ j, y j = x j) :=
  ⟨.bind' .any fun z _ => .bind' .any fun u _ => .pure' (scatter_rest z.1 z.2 _ x),
    .bind' .any fun z _ => .bind' .any fun u _ => .pure' (scatter_rest z.1 z.2 _ x),
    .bind' .any fun z _ => .bind' .any fun u _ => .pure' (scatter_rest z.1 z.2 _ x),
    .bind' .any fun z _ => .bind' .any fun u _ => .pure' (scatter_rest z.1 z.2 _ x)⟩

/-- The generator `r`, but `integers(n)` is 1, permutations start with `j`, `uniform` returns the upper end and the other
distributions return `v`. -/
def pick (r : Rng) (j : ℕ) (v : Fl) : Rng := { r with
  unif := fun _ _ _ hi => hi
  unif_mem := fun _ _ lo hi h => ⟨h, Fl.le_refl fun e => by subst e; cases lo <;> exact absurd h Bool.false_ne_true⟩
  dist := fun _ _ _ _ => v
  int := fun _ n => if 1 < n then 1 else 0
  int_lt := fun _ n h => by split <;> omega
  perm := fun _ n => if j < n then j :: (List.range n).erase j else List.range n
  perm_perm := fun _ n => by
    split
    · exact (List.perm_cons_erase (List.mem_range.2 ‹_›)).symm
    · exact .refl _ }

omit [Arith] in
theorem run_someCoords (env : Env (Vec D)) (w : World (Vec D)) (h : 2 ≤ D) (j : Fin D) (v : Fl) : ∃ w',
    (someCoords D).run { env with rng := pick env.rng j v } w = (.ok ⟨⟨1, h⟩, fun _ => j⟩, w') := by
  refine ⟨{ w with rk := w.rk + 1 + 1 }, ?_⟩
  have h1 : (intFin D : Prog (Vec D) (Fin D)).run { env with rng := pick env.rng j v } w = (.ok ⟨1, h⟩, { w with rk := w.rk + 1 }) := by
    rw [intFin, Prog.run_bind, run_int _ _ _ (by omega)]
    have e : (pick env.rng j v).int w.rk D = 1 := if_pos h
    simp only [e]
    rw [dif_pos (show 1 < D from h)]
    rfl
  have h2 : ∀ w : World (Vec D), (choiceFin D (⟨1, h⟩ : Fin D) : Prog (Vec D) _).run { env with rng := pick env.rng j v } w = (.ok fun _ => j, { w with rk := w.rk + 1 }) := by
    intro w
    unfold choiceFin
    rw [dif_pos (by show 1 ≤ D; omega)]
    have e : (Prog.perm D : Prog (Vec D) _).run { env with rng := pick env.rng j v } w = (.ok (j :: (List.range D).erase j), { w with rk := w.rk + 1 }) := by
      have : (pick env.rng j v).perm w.rk D = (j :: (List.range D).erase j : List ℕ) := if_pos j.2
      show (Except.ok ((pick env.rng j v).perm w.rk D), { w with rk := w.rk + 1 }) = _
      rw [this]
    simp only [permIdx, Prog.bind_def, Prog.run_bind, e, Prog.pure_def, Prog.run_pure]
    refine Prod.ext (congrArg Except.ok ?_) rfl
    funext k
    obtain ⟨k, hk⟩ := k
    obtain rfl : k = 0 := by have : k < 1 := hk; omega
    simp [idxArr]
  simp only [someCoords, Prog.bind_def, Prog.run_bind, h1, h2, Prog.pure_def, Prog.run_pure]

omit [Arith] in
theorem scatter_hit {m : ℕ} (hm : 0 < m) (j : Fin D) (f : Fin m → Fl) (x : Vec D) (c : Fl) (hf : ∀ k, f k = c) : scatter (fun _ : Fin m => j) f x j = c := by
  obtain ⟨m, rfl⟩ := Nat.exists_eq_succ_of_ne_zero (by omega : m ≠ 0)
  simp [scatter, List.finRange_succ, hf]

/-- **C60 (partial).** In two or more dimensions each coordinate `j` of a spark can be displaced: by as much as the amplitude in explosions,
and in Gaussian sparks by as much as the random number `v` says. -/
theorem C60_partial (env : Env (Vec D)) (w : World (Vec D)) (h : 2 ≤ D) (j : Fin D) (v amp : Fl) (av xb x : Vec D) : ∃ rng : Rng,
    (∃ y w', (explode amp x).run { env with rng := rng } w = (.ok y, w') ∧ y j = x j + amp * 1) ∧
    (∃ y w', (gaussian x).run { env with rng := rng } w = (.ok y, w') ∧ y j = x j * v) ∧
    (∃ y w', (explodeE av x).run { env with rng := rng } w = (.ok y, w') ∧ y j = x j + av j * 1) ∧
    ∃ y w', (gaussianE xb x).run { env with rng := rng } w = (.ok y, w') ∧ y j = x j + (xb j - x j) * v := by
  obtain ⟨w', hz⟩ := run_someCoords env w h j v
  have hu : ∀ w : World (Vec D), (Prog.unif (-1) 1 : Prog (Vec D) Fl).run { env with rng := pick env.rng j v } w = (.ok 1, { w with rk := w.rk + 1 }) := fun w => rfl
  have hn : ∀ (a : Fl) (w : World (Vec D)), ∃ w', (Prog.norm a 1 : Prog (Vec D) Fl).run { env with rng := pick env.rng j v } w = (.ok v, w') :=
    fun a w => ⟨{ w with rk := w.rk + 1 }, rfl⟩
  refine ⟨pick env.rng j v, ?_, ?_, ?_, ?_⟩
  · simp only [explode, Prog.bind_def, Prog.run_bind, hz, hu, Prog.pure_def, Prog.run_pure]
    exact ⟨_, _, rfl, scatter_hit (by decide : 0 < 1) j _ x _ fun _ => rfl⟩
  · obtain ⟨w2, h2⟩ := hn 1 w'
    simp only [gaussian, Prog.bind_def, Prog.run_bind, hz, h2, Prog.pure_def, Prog.run_pure]
    exact ⟨_, _, rfl, scatter_hit (by decide : 0 < 1) j _ x _ fun _ => rfl⟩
  · have e : (tabM 1 fun _ => (Prog.unif (-1) 1 : Prog (Vec D) Fl)).run { env with rng := pick env.rng j v } w' = (.ok fun _ => 1, { w' with rk := w'.rk + 1 }) := by
      refine Prod.ext (congrArg Except.ok ?_) rfl
      funext k
      rw [Fin.eq_zero k]
      rfl
    simp only [explodeE, Prog.bind_def, Prog.run_bind, hz, e, Prog.pure_def, Prog.run_pure]
    exact ⟨_, _, rfl, scatter_hit (by decide : 0 < 1) j _ x _ fun _ => rfl⟩
  · obtain ⟨w2, h2⟩ := hn 0 w'
    simp only [gaussianE, Prog.bind_def, Prog.run_bind, hz, h2, Prog.pure_def, Prog.run_pure]
    exact ⟨_, _, rfl, scatter_hit (by decide : 0 < 1) j _ x _ fun _ => rfl⟩

omit [Arith] in
/-- For instance, an explosion of amplitude 1 moves the origin of the plane. -/
example (env : Env (Vec 2)) (w : World (Vec 2)) : ∃ rng y w', (@explode NiaPy.Ex.arith 2 1 fun _ => 0).run { env with rng := rng } w = (.ok y, w') ∧ y 0 ≠ 0 := by
  letI := NiaPy.Ex.arith
  obtain ⟨rng, ⟨y, w', h1, h2⟩, -⟩ := C60_partial env w (le_refl 2) 0 0 1 (fun _ => 0) (fun _ => 0) fun _ => 0
  exact ⟨rng, y, w', h1, by rw [h2]; decide +kernel⟩

/-! ### C61: shape of the solution -/

/-- The shape of the array `population`, and of the best solution returned by `run_iteration` (fwa.py:159). -/
def BBSt.shape (s : BBSt D) : List ℕ := if s.row then [1, D] else [D]

/-- C61 (partial), every execution: the best solution is a vector once the incumbent has improved on the initial one. -/
theorem C61_bbfwa_partial (B : Box D) (p : BBPar) (env : Env (Vec D)) {ncb : ℕ} {hist : List (BBSt D × Vec D × Fl)} {w : World (Vec D)}
    (ht : (bbAlg B p).Trace env ncb hist w) (r : BBSt D × Vec D × Fl) (hr : r ∈ hist) (s0 : BBSt D) (xb : Vec D) (fxb : Fl)
    (h0 : hist.getLast? = some (s0, xb, fxb)) (hne : r.1.f ≠ s0.f) : r.1.shape = [D] := by
  have key := Alg.Trace.keep (A := bbAlg B p) ht (P := fun s : BBSt D => s.row = true → s.f = s0.f) (fun r hr _ => ?_) (fun r hr => ?_) r hr
  · cases hrow : r.1.row
    · simp [BBSt.shape, hrow]
    · exact absurd (key hrow) hne
  · have hr : hist.getLast? = some r := hr
    rw [h0] at hr; cases hr; rfl
  · change Post env (bbIter p r.1 r.2.1 r.2.2) _
    refine .bind' .any fun ys _ => .bind' .any fun xs _ => .bind' .any fun fs _ => .bind' .any fun i _ => .pure' ?_
    split
    · nofun
    · exact hr

/-- C61 is false: for an objective that is 0 everywhere, every iteration of every run returns a matrix with one row. -/
theorem C61_bbfwa_false (B : Box D) (p : BBPar) (env : Env (Vec D)) (hz : ∀ k x, env.obj k x = .ok 0) {ncb : ℕ}
    {hist : List (BBSt D × Vec D × Fl)} {w : World (Vec D)} (ht : (bbAlg B p).Trace env ncb hist w) (s0 : BBSt D) (xb : Vec D) (fxb : Fl)
    (h0 : hist.getLast? = some (s0, xb, fxb)) (hs0 : s0.f = 0) : ∀ r ∈ hist, r.1.shape = [1, D] := by
  have hinit : s0.row = true := by
    refine Alg.Trace.first (A := bbAlg B p) ht (P := fun s : BBSt D => s.row = true) (fun g => ?_) _ h0
    simp only [bbAlg, bbInit, Prog.wp_bind']
    exact Prog.wp_any _ (fun _ _ => rfl) _
  have key := Alg.Trace.keep (A := bbAlg B p) ht (P := fun s : BBSt D => s.row = true ∧ s.f = 0) (fun r hr => ?_) fun r hr => ?_
  · exact fun r hr => by simp [BBSt.shape, (key r hr).1]
  · have hr : hist.getLast? = some r := hr
    rw [h0] at hr; cases hr; exact ⟨hinit, hs0⟩
  · change Post env (bbIter p r.1 r.2.1 r.2.2) _
    refine .bind' .any fun ys _ => .bind' .any fun xs _ => .bind' (P := fun fs : Fin p.num → Fl => ∀ i, ¬ fs i < 0) ?_ fun fs hfs => .bind' .any fun i _ => .pure' ?_
    · unfold evalRows
      split
      · exact fun _ _ _ h => by cases h
      · refine .tabM (P := fun _ v => ¬ v < 0) fun i => .eval fun v hv => ?_
        rcases hv with rfl | ⟨k, u, hu, rfl⟩
        · decide
        · rw [hz] at hu; cases hu
          cases env.opt <;> decide
    · have hr : r.1.row = true ∧ r.1.f = 0 := hr
      rw [hr.2, if_neg (hfs i)]
      exact ⟨hr.1, rfl⟩

/-! ### Examples -/

/-- An objective that is 0 everywhere. -/
def Ex.zero : Env (Vec 1) := NiaPy.Ex.env (fun _ _ => .ok 0) .minimization (some 9) none none NiaPy.Ex.draws fun _ _ x i => NiaPy.Ex.clip1 (x i)

omit [Arith] in
/-- The hypotheses of `C61_bbfwa_false` hold of a run with one iteration. -/
example : ∃ s0 r w, (@bbAlg NiaPy.Ex.arith 1 (NiaPy.Ex.box 1) ⟨3, .fin 2, .fin (1 / 2)⟩).Trace Ex.zero 1 [r, s0] w ∧ s0.1.f = 0 := by
  letI := NiaPy.Ex.arith
  let A := bbAlg (NiaPy.Ex.box 1) ⟨3, .fin 2, .fin (1 / 2)⟩
  have h : (match (A.start 1).run Ex.zero (World.init .minimization) with
    | (.ok r, w) => decide (r.1.f = 0) && !stoppingCondition Ex.zero.toTaskCfg w.st &&
      (match (A.round 1 r).run Ex.zero w with | (.ok _, _) => true | _ => false)
    | _ => false) = true := by decide +kernel
  split at h
  · rename_i r w hr
    simp only [Bool.and_eq_true, decide_eq_true_eq, Bool.not_eq_true'] at h
    obtain ⟨⟨h1, h2⟩, h3⟩ := h
    split at h3
    · rename_i r' w' hr'
      exact ⟨r, r', w', .round (.start hr) h2 hr', h1⟩
    · cases h3
  · cases h

theorem metBy_reflects (B : Box D) (env : Env (Vec D)) : MetBy (Reflects B) env False := fun C _ h2 h3 _ _ => ⟨h2, fun x => by rw [h3]; trivial⟩

omit [Arith] in
theorem metBy_inside (B : Box D) (env : Env (Vec D)) : MetBy (Inside B) env False := fun C _ h2 h3 _ _ => ⟨h2, fun x _ => by rw [h3]; trivial⟩

omit [Arith] in
/-- Reflection never leads out of a finite box with distinct bounds, computed without rounding. -/
theorem reflectLaw_exact (fn : Fn → Fl → Fl) (B : Box D) (hfin : ∀ i, ∃ lo hi : ℚ, lo < hi ∧ B.lo i = .fin lo ∧ B.hi i = .fin hi) (x : Vec D) :
    B.NotOut (@Repair.reflect D (exactArith fn) B x) := by
  intro i
  obtain ⟨lo, hi, h, h1, h2⟩ := hfin i
  cases hx : x i with
  | fin v =>
    rw [Repair.reflect_fin fn B x i lo hi v h h1 h2 hx, h1, h2]
    have := Repair.reflX_mem v lo hi h
    by_cases hc : hi < v ∨ v < lo
    · simp only [hc, if_true, Fl.fin_lt_fin, not_lt]; exact ⟨this.1, this.2.le⟩
    · simp only [hc, if_false, Fl.fin_lt_fin]; push Not at hc; exact ⟨not_lt.2 hc.2, not_lt.2 hc.1⟩
  | nan => simp [Repair.reflect, Repair.setWhere, hx]
  | pinf =>
    have key : (letI := exactArith fn; (Fl.fin lo + Fl.pinf % (Fl.fin hi - Fl.fin lo) : Fl)) = .nan := rfl
    simp [Repair.reflect, Repair.setWhere, hx, h1, h2, key]
  | ninf =>
    have key : (letI := exactArith fn; (Fl.fin lo + Fl.ninf % (Fl.fin hi - Fl.fin lo) : Fl)) = .nan := rfl
    simp [Repair.reflect, Repair.setWhere, hx, h1, h2, key]

/-- Concrete runs of all three algorithms. -/
example : ∃ hist w, (@alg NiaPy.Ex.arith 1 (NiaPy.Ex.box 1) 4 Ex.par).Trace NiaPy.Ex.env2 1 hist w ∧ hist.length = 3 := by
  letI := NiaPy.Ex.arith
  exact (verified (NiaPy.Ex.box 1) 4 Ex.par).exists_trace NiaPy.Ex.env2 (metBy_reflects _ _) (fuel := 5) (by decide +kernel)

example : ∃ hist w, (@algE NiaPy.Ex.arith 2 (NiaPy.Ex.box 2) 4 Ex.par 0 0).Trace NiaPy.Ex.env2 1 hist w ∧ hist.length = 3 := by
  letI := NiaPy.Ex.arith
  exact (verifiedE (NiaPy.Ex.box 2) 4 Ex.par 0 0).exists_trace NiaPy.Ex.env2 (metBy_inside _ _) (fuel := 5) (by decide +kernel)

example : ∃ hist w, (@bbAlg NiaPy.Ex.arith 1 (NiaPy.Ex.box 1) ⟨3, .fin 2, .fin (1 / 2)⟩).Trace NiaPy.Ex.env2 1 hist w ∧ hist.length = 3 := by
  letI := NiaPy.Ex.arith
  exact (bb_verified (NiaPy.Ex.box 1) ⟨3, .fin 2, .fin (1 / 2)⟩).toIf.exists_trace NiaPy.Ex.env2 (metBy_none _ _) (fuel := 5) (by decide +kernel)

/-! ### C92: the least amplitude of the enhanced fireworks algorithm -/

/-- Square roots as they are rounded: finite, monotone and without error for squares of integers. -/
structure SqrtLaw (fn : Fn → Fl → Fl) : Prop where
  fin : ∀ q : ℚ, 0 ≤ q → ∃ r : ℚ, fn .sqrt (.fin q) = .fin r
  mono : ∀ q q' r r' : ℚ, 0 ≤ q → q ≤ q' → fn .sqrt (.fin q) = .fin r → fn .sqrt (.fin q') = .fin r' → r ≤ r'
  sq : ∀ n : ℕ, fn .sqrt (.fin ((n : ℚ) * n)) = .fin n
  inf : fn .sqrt .pinf = .pinf
  nan : fn .sqrt .nan = .nan

omit [Arith] in
theorem minAmp_fin (fn : Fn → Fl → Fl) (a0 a1 r : ℚ) (v : TaskView) (E : ℕ) (hE : v.maxEvals = some E) (hpos : 0 < E)
    (hr : fn .sqrt (.fin (v.evals * (2 * E - v.evals))) = .fin r) : letI := exactArith fn; minAmp (.fin a0) (.fin a1) v = .fin (a0 - r * (a0 - a1) / E) := by
  letI := exactArith fn
  have h2 : (Fl.ofNat 2 : Fl) = .fin 2 := by rw [Exact.ofNat_fin]; norm_num
  unfold minAmp
  rw [hE]
  show Fl.fin a0 - fn .sqrt (Fl.ofNat v.evals * (Fl.ofNat 2 * Fl.ofNat E - Fl.ofNat v.evals)) * (Fl.fin a0 - Fl.fin a1) / Fl.ofNat E = _
  rw [h2, Exact.ofNat_fin, Exact.ofNat_fin, Exact.mul_fin, Exact.sub_fin, Exact.mul_fin, hr, Exact.sub_fin, Exact.mul_fin,
    Exact.div_fin _ _ _ (by exact_mod_cast hpos.ne'), Exact.sub_fin]

omit [Arith] in
/-- **C92, EFWA**: with `max_evals`, the least amplitude of explosions is between `amplitude_final` and `amplitude_init`, does not grow with the number of evaluations
and is `amplitude_final` when the last evaluation has been made. -/
theorem C92_efwa (fn : Fn → Fl → Fl) (L : SqrtLaw fn) (a0 a1 : ℚ) (ha : a1 ≤ a0) (E : ℕ) (hpos : 0 < E) (v : TaskView) (hE : v.maxEvals = some E) (hle : v.evals ≤ E) :
    letI := exactArith fn
    ∃ m : ℚ, minAmp (.fin a0) (.fin a1) v = .fin m ∧ a1 ≤ m ∧ m ≤ a0 ∧ (v.evals = 0 → m = a0) ∧ (v.evals = E → m = a1) ∧
      ∀ v' : TaskView, v'.maxEvals = some E → v.evals ≤ v'.evals → v'.evals ≤ E → minAmp (.fin a0) (.fin a1) v' ≤ .fin m := by
  letI := exactArith fn
  have hEq : (0 : ℚ) < E := by exact_mod_cast hpos
  have dom : ∀ e : ℕ, e ≤ E → (0 : ℚ) ≤ e * (2 * E - e) ∧ (e : ℚ) * (2 * E - e) ≤ E * E := by
    intro e he
    have h1 : (e : ℚ) ≤ E := by exact_mod_cast he
    have h0 : (0 : ℚ) ≤ e := by positivity
    constructor
    · exact mul_nonneg h0 (by linarith)
    · nlinarith [sq_nonneg ((E : ℚ) - e)]
  have root : ∀ e : ℕ, e ≤ E → ∃ r : ℚ, fn .sqrt (.fin (e * (2 * E - e))) = .fin r ∧ 0 ≤ r ∧ r ≤ E := by
    intro e he
    obtain ⟨r, hr⟩ := L.fin _ (dom e he).1
    have z := L.sq 0
    simp only [Nat.cast_zero, mul_zero] at z
    exact ⟨r, hr, L.mono 0 _ 0 r le_rfl (dom e he).1 z hr, L.mono _ _ r E (dom e he).1 (dom e he).2 hr (L.sq E)⟩
  obtain ⟨r, hr, r0, rE⟩ := root _ hle
  have hd : 0 ≤ a0 - a1 := by linarith
  refine ⟨_, minAmp_fin fn a0 a1 r v E hE hpos hr, ?_, ?_, fun h => ?_, fun h => ?_, fun v' hE' hv hle' => ?_⟩
  · have : r * (a0 - a1) / E ≤ a0 - a1 := by
      rw [div_le_iff₀ hEq, mul_comm]
      exact mul_le_mul_of_nonneg_left rE hd
    linarith
  · have : 0 ≤ r * (a0 - a1) / E := by positivity
    linarith
  · have z := L.sq 0
    rw [h] at hr
    simp only [Nat.cast_zero, mul_zero, zero_mul] at hr z
    rw [z] at hr
    cases hr
    simp
  · rw [h, show ((E : ℚ) * (2 * E - E)) = E * E by ring, L.sq E] at hr
    cases hr
    field_simp
    ring
  · obtain ⟨r', hr', -, -⟩ := root _ hle'
    rw [minAmp_fin fn a0 a1 r' v' E hE' hpos hr', Fl.fin_le_fin]
    have h1 : (v.evals : ℚ) ≤ v'.evals := by exact_mod_cast hv
    have h2 : (v'.evals : ℚ) ≤ E := by exact_mod_cast hle'
    have : r ≤ r' := L.mono _ _ r r' (dom _ hle).1 (by nlinarith) hr hr'
    have : r * (a0 - a1) / E ≤ r' * (a0 - a1) / E := by gcongr
    linarith

omit [Arith] in
/-- Without `max_evals` the least amplitude is NaN. -/
theorem minAmp_nan (fn : Fn → Fl → Fl) (L : SqrtLaw fn) (a0 a1 : Fl) (v : TaskView) (hE : v.maxEvals = none) : letI := exactArith fn; minAmp a0 a1 v = .nan := by
  letI := exactArith fn
  have h1 : (Fl.ofNat 2 * Fl.pinf - Fl.ofNat v.evals : Fl) = .pinf := rfl
  have h2 : ∀ e : ℕ, fn .sqrt (Fl.ofNat e * .pinf) = .pinf ∨ fn .sqrt (Fl.ofNat e * .pinf) = .nan := by
    intro e
    have : (Fl.ofNat e * Fl.pinf : Fl) = Fl.infOf e := rfl
    rw [this, Fl.infOf]
    split
    · exact Or.inl L.inf
    · rw [if_neg (by have : (0 : ℚ) ≤ e := by positivity
                     linarith)]
      exact Or.inr L.nan
  have h3 : ∀ d : Fl, (Fl.pinf * d / Fl.pinf : Fl) = .nan := by
    intro d
    show Fl.divX (Fl.mulX _ _) _ = _
    cases d with
    | fin q => simp only [Fl.mulX, Fl.infOf]; split_ifs <;> rfl
    | _ => rfl
  have h4 : ∀ d : Fl, (Fl.nan * d / Fl.pinf : Fl) = .nan := fun d => rfl
  have h5 : ∀ a : Fl, (a - Fl.nan : Fl) = .nan := fun a => by cases a <;> rfl
  unfold minAmp
  rw [hE]
  show a0 - fn .sqrt (Fl.ofNat v.evals * (Fl.ofNat 2 * Fl.pinf - Fl.ofNat v.evals)) * (a0 - a1) / Fl.pinf = _
  rw [h1]
  rcases h2 v.evals with h | h
  · rw [h, h3, h5]
  · rw [h, h4, h5]

omit [Arith] in
/-- **C92 is false of EFWA without `max_evals`**: `amplitude_init` and `amplitude_final` have no effect on any run. -/
theorem C92_efwa_false (fn : Fn → Fl → Fl) (L : SqrtLaw fn) (B : Box D) (N : ℕ) (p : Par) (a0 a1 b0 b1 : Fl) (env : Env (Vec D)) (hE : env.maxEvals = none) (main : Bool)
    (ncb fuel : ℕ) : letI := exactArith fn; (algE B N p a0 a1).exec env main ncb fuel = (algE B N p b0 b1).exec env main ncb fuel := by
  letI := exactArith fn
  refine Alg.exec_congr (A := algE B N p b0 b1) (iter' := iterE B p a0 a1) (Inv := fun _ => True) Post.any (fun s xb fxb _ => Post.any) (fun s xb fxb _ => ?_) main ncb fuel
  change Same env (iterE B p b0 b1 s xb fxb) (iterE B p a0 a1 s xb fxb)
  unfold iterE
  refine Same.bind' Post.any fun n _ => Same.bind' Post.any fun amp _ => Same.bind' Post.look fun v hv => Same.of_eq ?_
  simp only [minAmp_nan fn L _ _ v (hv.2.trans hE)]

/-- A square root that is rounded down to an integer. -/
def Ex.root : Fn → Fl → Fl
  | .sqrt, .fin q => .fin (Nat.sqrt ⌊q⌋.toNat)
  | _, x => x

omit [Arith] in
/-- The hypotheses of `C92_efwa` and `C92_efwa_false`. -/
theorem Ex.root_law : SqrtLaw Ex.root where
  fin q _ := ⟨_, rfl⟩
  mono q q' r r' h0 h e e' := by
    cases e; cases e'
    have : Nat.sqrt ⌊q⌋.toNat ≤ Nat.sqrt ⌊q'⌋.toNat := Nat.sqrt_le_sqrt (Int.toNat_le_toNat (Int.floor_le_floor h))
    exact_mod_cast this
  sq n := by
    show Fl.fin (Nat.sqrt ⌊(n : ℚ) * n⌋.toNat) = _
    have : ⌊(n : ℚ) * n⌋ = ((n * n : ℕ) : ℤ) := by
      rw [← Nat.cast_mul]; exact Int.floor_natCast _
    rw [this, Int.toNat_natCast, Nat.sqrt_eq]
  inf := rfl
  nan := rfl

omit [Arith] in
example : (letI := exactArith Ex.root; minAmp (.fin (1 / 5)) (.fin (1 / 100)) ⟨0, 50, none, some 100, false⟩ = .fin (1 / 5 - 86 * (19 / 100) / 100)) := by
  decide +kernel

end NiaPy.FWA
