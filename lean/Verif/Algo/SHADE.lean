import Verif.Algo.JDE

/-!
# Success-history based adaptive differential evolution (`niapy/algorithms/modified/shade.py`, `ilshade.py`)

SHADE, L-SHADE and ILSHADE in one model; `Par` says which. As in jDE, individuals are evaluated with `rng=self.random`.
-/

namespace NiaPy.SHADE
open NiaPy DE
open NiaPy.JDE (SA)
variable [Arith] {D : ℕ}

/-- Parameters (shade.py:168-185, ilshade.py:91-109). `lpsr` is false for SHADE, true for L-SHADE and ILSHADE; `ilEnd` is
`pbest_end` of ILSHADE (whose `pbest_start` is `pbest`) and `none` for the other two. `depth` is the number of recursive calls
after which Python raises `RecursionError`. -/
structure Par where
  N : ℕ
  arcRate : Fl
  pbest : Fl
  H : ℕ
  lpsr : Bool
  ilEnd : Option Fl
  depth : ℕ

/-- `v` as an integer, towards zero: `int(v)` raises `ValueError` for NaN and `OverflowError` for an infinite value. -/
def toInt : Fl → Except PyErr ℤ
  | .fin q => .ok (if 0 ≤ q then ⌊q⌋ else ⌈q⌉)
  | .nan => .error .valueError
  | .pinf => .error .overflowError
  | .ninf => .error .overflowError

/-- `round(v)` and `np.int_(np.around(v))` -/
def roundInt (v : Fl) : Except PyErr ℤ := do
  let r ← pyRound v
  toInt r

/-- `np.clip(v, 0, 1)` -/
def clip01 (v : Fl) : Fl := if v < .fin 0 then .fin 0 else if .fin 1 < v then .fin 1 else v

/-- The attributes of an individual made without giving them: 0.5 and 0.5 (shade.py:112), 0.5 and 0.8 (ilshade.py:30). -/
def Par.default (p : Par) : SA := if p.ilEnd.isSome then ⟨lit 1 2, lit 4 5⟩ else ⟨lit 1 2, lit 1 2⟩

/-- Population and the additional arguments `h_mem_cr`, `h_mem_f`, `k`, `archive`, `arc_ind_cnt`, `pbest_factor`. -/
structure St (D : ℕ) where
  pop : List (Ind D SA)
  hcr : List Fl
  hf : List Fl
  k : ℕ
  arc : List (Vec D)
  cnt : ℕ
  pb : Fl

/-! ### New individuals -/

/-- `cauchy` (shade.py:221-233): draws again until the number is positive. -/
def cauchy (loc gamma : Fl) : ℕ → Prog (Vec D) Fl
  | 0 => .throw .recursionError
  | n + 1 => do
    let r ← Prog.rand
    let c := loc + gamma * Arith.fn .tan (piF * (r - lit 1 2))
    if .fin 0 < c then return c else cauchy loc gamma n

/-- the crossover rate drawn around the value from the memory (shade.py:250, ilshade.py:172) -/
def drawCR (draw : Bool) (m : Fl) : Prog (Vec D) Fl := if draw then Prog.norm m (lit 1 10) else pure (.fin 0)

/-- the pair from the memory (shade.py:247-249, ilshade.py:162-169); the index is always in range -/
def fromMemory (p : Par) (hcr hf : List Fl) (mi : ℕ) : Fl × Fl :=
  if p.ilEnd.isSome ∧ mi + 1 = p.H then (lit 9 10, lit 9 10) else (hcr.getD mi .nan, hf.getD mi .nan)

/-- whether a crossover rate is drawn at all: `m_cr != -1` (shade.py:250), `m_cr >= 0` (ilshade.py:172) -/
def drawn (p : Par) (m : Fl) : Bool := if p.ilEnd.isSome then decide (Fl.fin 0 ≤ m) else decide (m ≠ .fin (-1))

/-- `nfe < (n/d) * max_nfe` -/
def before (n d : ℕ) (v : TaskView) : Prop := Fl.ofNat v.evals < lit n d * limF v.maxEvals

instance (n d : ℕ) (v : TaskView) : Decidable (before n d v) := by unfold before; infer_instance

/-- the crossover rate in the early stages of ILSHADE (ilshade.py:176-177) -/
def earlyCR (p : Par) (v : TaskView) (cr : Fl) : Fl :=
  if p.ilEnd.isSome then
    if before 1 4 v ∧ cr < lit 1 2 then lit 1 2 else if before 1 2 v ∧ cr < lit 1 4 then lit 1 4 else cr
  else cr

/-- the scale factor in the early stages of ILSHADE (ilshade.py:183-185) -/
def earlyF (p : Par) (v : TaskView) (f : Fl) : Fl :=
  if p.ilEnd.isSome then
    if before 1 4 v ∧ lit 7 10 < f then lit 7 10
    else if before 1 2 v ∧ lit 4 5 < f then lit 4 5
    else if before 3 4 v ∧ lit 9 10 < f then lit 9 10 else f
  else f

/-- `gen_ind_params` (shade.py:235-256, ilshade.py:148-187). -/
def genParams (p : Par) (v : TaskView) (hcr hf : List Fl) : Prog (Vec D) SA := do
  let mi ← Prog.int p.H
  let (mcr, mf) := fromMemory p hcr hf mi
  let cr ← drawCR (drawn p mcr) mcr
  let f ← cauchy mf (lit 1 10) p.depth
  return ⟨earlyF p v (clip01 f), earlyCR p v (clip01 cr)⟩

/-- `parent_medium` (shade.py:23-40) -/
def parentMedium (B : Box D) (parent x : Vec D) : Vec D := fun i =>
  let a := if x i < B.lo i then (B.lo i + parent i) / Fl.ofNat 2 else x i
  if B.hi i < a then (B.hi i + parent i) / Fl.ofNat 2 else a

/-- `rng.choice(n, p=p)` with equal probabilities for the indices that satisfy `ok` and zero for the others; raises `ValueError` if
there is none. -/
def pick (n : ℕ) (ok : ℕ → Bool) : Prog (Vec D) ℕ := do
  let l ← Prog.perm n
  match l.filter ok with
  | [] => .throw .valueError
  | a :: _ => return a

/-- `l[i]` -/
def row {α : Type} (l : List α) (i : ℕ) : Except PyErr α :=
  match l[i]? with
  | none => .error .indexError
  | some a => .ok a

/-- individual `r` of population and archive (shade.py:83-92) -/
def donor (l : List (Ind D SA)) (arc : List (Vec D)) (r : ℕ) : Except PyErr (Vec D) :=
  if l.length ≤ r then row arc (r - l.length) else row (l.map (·.x)) r

/-- `cross_curr2pbest1` (shade.py:43-93) -/
def cross (B : Box D) (l : List (Ind D SA)) (arc : List (Vec D)) (cnt pnum : ℕ) (ic : Fin l.length) (e : SA) : Prog (Vec D) (Vec D) := do
  let b ← Prog.int pnum
  let r1 ← pick l.length (fun i => decide (i ≠ ic))
  let r2 ← pick (l.length + cnt) (fun i => decide (i ≠ ic ∧ i ≠ r1))
  let j ← intFin D
  let xb ← Prog.ofExcept (row (l.map (·.x)) b)
  let x1 ← Prog.ofExcept (row (l.map (·.x)) r1)
  let x2 ← Prog.ofExcept (donor l arc r2)
  let x := pts l ic
  let v ← binomial e.cr j x (fun i => x i + e.f * (xb i - x i) + e.f * (x1 i - x2 i))
  return parentMedium B x v

/-- `p_num` (shade.py:274-276, ilshade.py:208-210) -/
def pNum (pb : Fl) (n : ℕ) : Except PyErr ℕ := do
  let r ← roundInt (Fl.ofNat n * pb)
  return (max 2 r).toNat

/-- `evolve` (shade.py:258-284, ilshade.py:189-218). -/
def evolve (B : Box D) (p : Par) (s : St D) (l : List (Ind D SA)) : Prog (Vec D) (Fin l.length → Ind D SA) := do
  let v ← Prog.look
  let ps ← tabM l.length fun _ => genParams p v s.hcr s.hf
  let pnum ← Prog.ofExcept (pNum s.pb l.length)
  let xs ← tabM l.length fun i => cross B l s.arc s.cnt pnum i (ps i)
  tabM l.length fun i => do
    let x ← Prog.repair (xs i) false
    let v ← Prog.eval x
    return ⟨x, v, ps i⟩

/-! ### Selection -/

/-- The survivors (shade.py:313-316, 331): the new individual unless it is worse. -/
def survivors (l : List (Ind D SA)) (new : Fin l.length → Ind D SA) : List (Ind D SA) :=
  List.ofFn fun i => if (new i).f ≤ (l.get i).f then new i else l.get i

/-- Storing a replaced individual in an archive of capacity `size` (shade.py:319-327). -/
def store (size : ℤ) (x : Vec D) (a : List (Vec D) × ℕ) : Prog (Vec D) (List (Vec D) × ℕ) :=
  if size ≤ 1 then pure a
  else if (a.2 : ℤ) < size then
    if a.2 < a.1.length then pure (a.1.set a.2 x, a.2 + 1) else .throw .indexError
  else do
    let r ← Prog.int size.toNat
    if r < a.1.length then return (a.1.set r x, a.2) else .throw .indexError

/-- The archive after the selection (shade.py:312-327). -/
def archive (size : ℤ) (l : List (Ind D SA)) (new : Fin l.length → Ind D SA) (a : List (Vec D) × ℕ) : Prog (Vec D) (List (Vec D) × ℕ) :=
  forFin l.length (fun i a => if (new i).f < (l.get i).f then store size (pts l i) a else pure a) a

/-- What is recorded of a successful individual: `fitness_diff`, `success_f`, `success_cr`. -/
structure Succ where
  d : Fl
  f : Fl
  cr : Fl

/-- The successful individuals (shade.py:317, 328-330). -/
def successes (l : List (Ind D SA)) (new : Fin l.length → Ind D SA) : List Succ :=
  (List.finRange l.length).filterMap fun i =>
    if (new i).f < (l.get i).f then some ⟨Fl.abs ((l.get i).f - (new i).f), (new i).ext.f, (new i).ext.cr⟩ else none

/-- `s` weighted with the differences of the fitness: the sums of `w * s * s` and of `w * s` (shade.py:432-444); the differences
are added up from left to right. -/
def sums (sel : Succ → Fl) (l : List Succ) : Fl × Fl :=
  let total := l.foldl (fun a s => a + s.d) (.fin 0)
  l.foldl (fun a s => (a.1 + s.d / total * sel s * sel s, a.2 + s.d / total * sel s)) (.fin 0, .fin 0)

/-- what is stored as scale factor (shade.py:446, ilshade.py:370-376) -/
def memF (p : Par) (l : List Succ) (old : Fl) : Fl :=
  let s := sums (·.f) l
  if p.ilEnd.isSome then (s.1 / s.2 + old) / Fl.ofNat 2 else s.1 / s.2

/-- what is stored as crossover rate (shade.py:448, ilshade.py:372-377) -/
def memCR (p : Par) (l : List Succ) (old : Fl) : Fl :=
  let s := sums (·.cr) l
  let new := if s.2 = .fin 0 ∨ old = .fin (-1) then .fin (-1) else s.1 / s.2
  if p.ilEnd.isSome then (new + old) / Fl.ofNat 2 else new

/-- The memories after the selection (shade.py:429-451, ilshade.py:349-379). -/
def learn (p : Par) (l : List Succ) (s : St D) : St D :=
  if l.isEmpty then s
  else { s with
    hf := s.hf.set s.k (memF p l (s.hf.getD s.k .nan))
    hcr := s.hcr.set s.k (memCR p l (s.hcr.getD s.k .nan))
    k := if p.H ≤ s.k + 1 then 0 else s.k + 1 }

/-! ### Reduction -/

/-- The loop that looks for the worst individual (shade.py:527-529): position of the first largest value. -/
def worstGo : List Fl → ℕ → ℕ → Fl → ℕ
  | [], _, w, _ => w
  | f :: fs, j, w, fw => if fw < f then worstGo fs (j + 1) j f else worstGo fs (j + 1) w fw

/-- `np.delete(pop, worst)` (shade.py:530) -/
def removeWorst (l : List (Ind D SA)) : List (Ind D SA) :=
  l.eraseIdx (worstGo (l.map (·.f)) 0 0 ((l.map (·.f)).headD .nan))

/-- The loop that removes individuals (shade.py:526-530). -/
def remove : ℕ → List (Ind D SA) → List (Ind D SA)
  | 0, l => l
  | n + 1, l => remove n (removeWorst l)

/-- `next_pop_size` (shade.py:517-520, ilshade.py:247-250) -/
def nextSize (N : ℕ) (v : TaskView) : Except PyErr ℕ := do
  let r ← roundInt ((Fl.ofNat 4 - Fl.ofNat N) / limF v.maxEvals * Fl.ofNat v.evals + Fl.ofNat N)
  return (max 4 r).toNat

/-- `next_arc_size` (shade.py:532, ilshade.py:262). A negative rate is impossible (`np.zeros` rejects it initially). -/
def nextArc (p : Par) (n : ℕ) : Except PyErr ℕ := do
  let r ← toInt (Fl.ofNat n * p.arcRate)
  return r.toNat

/-- `pbest_factor` after a reduction (ilshade.py:267) -/
def nextPb (p : Par) (v : TaskView) (pb : Fl) : Fl :=
  match p.ilEnd with
  | none => pb
  | some e => (e - p.pbest) / limF v.maxEvals * Fl.ofNat v.evals + p.pbest

/-- the reduction itself (shade.py:524-534, ilshade.py:254-267) -/
def reduceTo (p : Par) (v : TaskView) (next : ℕ) (s : St D) : Except PyErr (St D) :=
  if next < s.pop.length then do
    let m ← nextArc p next
    return { s with pop := remove (s.pop.length - next) s.pop, cnt := min s.cnt m, pb := nextPb p v s.pb }
  else return s

/-- `post_selection` (shade.py:335-355, 491-536, ilshade.py:220-269). Division by a maximum of zero evaluations raises. -/
def post (p : Par) (s : St D) : Prog (Vec D) (St D) :=
  if p.lpsr then do
    let v ← Prog.look
    if v.maxEvals = some 0 then .throw .zeroDivisionError
    else do
      let next ← Prog.ofExcept (nextSize p.N v)
      Prog.ofExcept (reduceTo p v next s)
  else pure s

/-! ### The algorithm -/

/-- the capacity of the archive for a population of size `n` (shade.py:312, 383) -/
def capacity (p : Par) (n : ℕ) : Except PyErr ℤ := roundInt (Fl.ofNat n * p.arcRate)

/-- the archive initially: `np.zeros((arc_size, task.dimension))` (shade.py:383-384) -/
def initArc (p : Par) : Except PyErr (List (Vec D)) := do
  let n ← capacity p p.N
  if n < 0 then .error .valueError else return List.replicate n.toNat fun _ => .fin 0

/-- `init_population` (shade.py:357-389, ilshade.py:271-306). -/
def init (opt : OptType) (B : Box D) (p : Par) : Prog (Vec D) (St D) := do
  let l ← DE.init opt B p.N p.default
  let arc ← Prog.ofExcept (initArc p)
  return ⟨l, List.replicate p.H p.default.cr, List.replicate p.H (lit 1 2), 0, arc, 0, p.pbest⟩

/-- `run_iteration` (shade.py:391-460, ilshade.py:308-389). -/
def iter (B : Box D) (p : Par) (s : St D) (xb : Vec D) (fxb : Fl) : Prog (Vec D) (St D × Vec D × Fl) := do
  let l ← sortRecs (·.f) s.pop
  let new ← evolve B p s l
  let size ← Prog.ofExcept (capacity p l.length)
  let a ← archive size l new (s.arc, s.cnt)
  let (xb, fxb) ← best (survivors l new) xb fxb
  let s' := learn p (successes l new) { s with pop := survivors l new, arc := a.1, cnt := a.2 }
  let s' ← post p s'
  let (xb, fxb) ← best s'.pop xb fxb
  return (s', xb, fxb)

/-- `SuccessHistoryAdaptiveDifferentialEvolution` (shade.py:122-460), `LpsrSuccessHistoryAdaptiveDifferentialEvolution`
(shade.py:463-536), `ImprovedLsprSuccessHistoryAdaptiveDifferentialEvolution` (ilshade.py:49-389). -/
def alg (opt : OptType) (B : Box D) (p : Par) : Alg (Vec D) where
  σ := St D
  init := init opt B p
  pop s := s.pop.map (·.x)
  fit s := s.pop.map (·.f)
  iter := iter B p

/-! ### Proofs -/

variable {C : Ctx (Vec D)} {g : Ghost (Vec D)}

theorem cauchy_yields (loc gamma : Fl) (n : ℕ) : Yields C (cauchy loc gamma n : Prog (Vec D) Fl) fun c => .fin 0 < c := by
  induction n with
  | zero => exact .throw nofun
  | succ n ih =>
    unfold cauchy
    exact .bindT Yields.rand.quiet fun r => .ite (fun h => .pure' h) fun _ => ih

omit [Arith] in
theorem pick_quiet (n : ℕ) (ok : ℕ → Bool) : Quiet C (pick n ok : Prog (Vec D) ℕ) := by
  unfold pick
  refine .bindT Yields.perm.quiet fun l => ?_
  split
  · exact .throw nofun
  · exact .pure' trivial

omit [Arith] in
theorem ofExcept_yields {α : Type} {r : Except PyErr α} {P : α → Prop} (h : ∀ a, r = .ok a → P a) (ho : r ≠ .error .outOfFuel) :
    Yields C (Prog.ofExcept r : Prog (Vec D) α) P := ⟨fun g => by
  rw [Prog.wp_ofExcept]
  exact ⟨fun a ha => ⟨h a ha, rfl⟩, fun h => absurd h ho⟩⟩

omit [Arith] in
theorem row_no_oof {α : Type} (l : List α) (i : ℕ) : row l i ≠ .error .outOfFuel := by
  unfold row; split <;> simp

omit [Arith] in
theorem donor_no_oof (l : List (Ind D SA)) (arc : List (Vec D)) (r : ℕ) : donor l arc r ≠ .error .outOfFuel := by
  unfold donor; split <;> exact row_no_oof _ _

omit [Arith] in
theorem toInt_no_oof (v : Fl) : toInt v ≠ .error .outOfFuel := by cases v <;> simp [toInt]

theorem roundInt_no_oof (v : Fl) : roundInt v ≠ .error .outOfFuel := by
  unfold roundInt pyRound
  cases v <;> simp [bind, Except.bind, toInt_no_oof]

theorem pNum_no_oof (pb : Fl) (n : ℕ) : pNum pb n ≠ .error .outOfFuel := by
  unfold pNum
  intro h
  cases hr : roundInt (Fl.ofNat n * pb) with
  | error e => rw [hr] at h; cases h; exact roundInt_no_oof _ hr
  | ok a => rw [hr] at h; cases h

theorem genParams_yields (p : Par) (v : TaskView) (hcr hf : List Fl) : Yields C (genParams p v hcr hf : Prog (Vec D) SA) fun e =>
    ∃ f cr, .fin 0 < f ∧ e = ⟨earlyF p v (clip01 f), earlyCR p v (clip01 cr)⟩ := by
  unfold genParams
  refine .bindT Yields.int.quiet fun mi => .bindT ?_ fun cr => .bind' (cauchy_yields _ _ _) fun f hf => .pure' ⟨f, cr, hf, rfl⟩
  unfold drawCR
  split
  · exact Yields.norm
  · exact .pure' trivial

theorem cross_quiet (B : Box D) (l : List (Ind D SA)) (arc : List (Vec D)) (cnt pnum : ℕ) (ic : Fin l.length) (e : SA) :
    Quiet C (cross B l arc cnt pnum ic e) := by
  unfold cross
  refine .bindT Yields.int.quiet fun b => .bindT (pick_quiet _ _) fun r1 => .bindT (pick_quiet _ _) fun r2 => .bindT Yields.intFin fun j =>
    .bindT (ofExcept_yields (fun _ _ => trivial) (row_no_oof _ _)) fun xb => .bindT (ofExcept_yields (fun _ _ => trivial) (row_no_oof _ _)) fun x1 =>
    .bindT (ofExcept_yields (fun _ _ => trivial) (donor_no_oof _ _ _)) fun x2 => .bindT ?_ fun v => .pure' trivial
  unfold binomial
  yields

theorem wp_evolve (hent : C.ent) (B : Box D) (p : Par) (s : St D) (l : List (Ind D SA)) {S : Fl → Prop} (h0 : Cov C S g) :
    (evolve B p s l).wp C (fun new g' => Cov C (fun u => S u ∨ ∃ i, u = (new i).f) g' ∧ (∀ i, C.Fit g'.b (new i).x (new i).f) ∧
      g'.c = g.c + l.length) g := by
  simp only [evolve, Prog.wp_bind', Prog.wp_look]
  intro v
  refine (Yields.tabMT fun i => (genParams_yields p _ _ _).quiet).wp fun ps _ => ?_
  refine (ofExcept_yields (P := fun _ => True) (fun _ _ => trivial) (pNum_no_oof _ _)).wp fun pnum _ => ?_
  refine (Yields.tabMT fun i => cross_quiet ..).wp fun xs _ => ?_
  refine Prog.wp_mono (fun r g' h => ⟨h.1, h.2.1, by simpa using h.2.2.2⟩) (wp_tabM_cov (fun _ a => a.x) (fun _ a => a.f) (fun _ _ => True) 1 h0
    fun i g S hS => ?_)
  simp only [Prog.wp_bind', Prog.wp_repair, Prog.wp_eval]
  exact ⟨Or.inr hent, fun y hy _ => ⟨hy, fun v hv => ⟨(hS.eval v).mono fun u hu => hu.symm, .new hv, trivial, rfl⟩⟩⟩

omit [Arith] in
theorem archive_quiet (size : ℤ) (l : List (Ind D SA)) (new : Fin l.length → Ind D SA) (a : List (Vec D) × ℕ)
    (P : List (Vec D) × ℕ → Prop) (h0 : P a)
    (h : ∀ x a, P a → Yields C (store size x a) P) : Yields C (archive size l new a) P := by
  unfold archive
  exact Yields.forFin P h0 fun i a ha => .ite (fun _ => h _ a ha) fun _ => .pure' ha

omit [Arith] in
/-- What `store` does to the number of individuals in the archive. -/
theorem store_yields (size : ℤ) (x : Vec D) (a : List (Vec D) × ℕ) : Yields C (store size x a) fun a' =>
    a'.1.length = a.1.length ∧ (a'.2 = a.2 ∨ (a'.2 = a.2 + 1 ∧ (a.2 : ℤ) < size ∧ a.2 < a.1.length)) := by
  unfold store
  refine .ite (fun _ => .pure' ⟨rfl, Or.inl rfl⟩) fun _ => .ite (fun h => .ite (fun h' => .pure' ⟨by simp, Or.inr ⟨rfl, h, h'⟩⟩) fun _ => .throw nofun)
    fun _ => ?_
  exact .bindT Yields.int.quiet fun r => .ite (fun _ => .pure' ⟨by simp, Or.inl rfl⟩) fun _ => .throw nofun

omit [Arith] in
theorem removeWorst_sub (l : List (Ind D SA)) : (removeWorst l).Sublist l := List.eraseIdx_sublist _ _

omit [Arith] in
theorem worstGo_lt {fs : List Fl} {j w n : ℕ} {fw : Fl} (hw : w < n) (hj : j + fs.length ≤ n) : worstGo fs j w fw < n := by
  induction fs generalizing j w fw with
  | nil => exact hw
  | cons f fs ih =>
    simp only [List.length_cons] at hj
    simp only [worstGo]
    split
    · exact ih (by omega) (by omega)
    · exact ih hw (by omega)

omit [Arith] in
theorem removeWorst_length (l : List (Ind D SA)) (h : l ≠ []) : (removeWorst l).length = l.length - 1 := by
  unfold removeWorst
  rw [List.length_eraseIdx_of_lt]
  have : 0 < l.length := List.length_pos_iff.2 h
  exact worstGo_lt this (by simp)

omit [Arith] in
theorem remove_sub (n : ℕ) (l : List (Ind D SA)) : (remove n l).Sublist l := by
  induction n generalizing l with
  | zero => exact List.Sublist.refl _
  | succ n ih => exact (ih _).trans (removeWorst_sub l)

omit [Arith] in
theorem remove_length (n : ℕ) (l : List (Ind D SA)) (h : n < l.length) : (remove n l).length = l.length - n := by
  induction n generalizing l with
  | zero => rfl
  | succ n ih =>
    have hl := removeWorst_length l (by rintro rfl; simp at h)
    rw [remove, ih _ (by omega), hl]; omega

theorem nextSize_ge {N : ℕ} {v : TaskView} {n : ℕ} (h : nextSize N v = .ok n) : 4 ≤ n := by
  unfold nextSize at h
  cases hr : roundInt ((Fl.ofNat 4 - Fl.ofNat N) / limF v.maxEvals * Fl.ofNat v.evals + Fl.ofNat N) with
  | error e => rw [hr] at h; cases h
  | ok a => rw [hr] at h; cases h; omega

theorem nextSize_no_oof (N : ℕ) (v : TaskView) : nextSize N v ≠ .error .outOfFuel := by
  unfold nextSize
  intro h
  cases hr : roundInt ((Fl.ofNat 4 - Fl.ofNat N) / limF v.maxEvals * Fl.ofNat v.evals + Fl.ofNat N) with
  | error e => rw [hr] at h; cases h; exact roundInt_no_oof _ hr
  | ok a => rw [hr] at h; cases h

theorem nextArc_no_oof (p : Par) (n : ℕ) : nextArc p n ≠ .error .outOfFuel := by
  unfold nextArc
  intro h
  cases hr : toInt (Fl.ofNat n * p.arcRate) with
  | error e => rw [hr] at h; cases h; exact toInt_no_oof _ hr
  | ok a => rw [hr] at h; cases h

theorem reduceTo_no_oof (p : Par) (v : TaskView) (n : ℕ) (s : St D) : reduceTo p v n s ≠ .error .outOfFuel := by
  unfold reduceTo
  split
  · intro h
    cases hr : nextArc p n with
    | error e => rw [hr] at h; cases h; exact nextArc_no_oof _ _ hr
    | ok a => rw [hr] at h; cases h
  · simp [pure, Except.pure]

/-- What a reduction may do. -/
structure Reduced (p : Par) (s s' : St D) : Prop where
  same : s'.pop = s.pop ∧ s'.cnt = s.cnt ∨
    ∃ next m, 4 ≤ next ∧ next < s.pop.length ∧ s'.pop = remove (s.pop.length - next) s.pop ∧ nextArc p next = .ok m ∧ s'.cnt = min s.cnt m
  arc : s'.arc = s.arc
  hcr : s'.hcr = s.hcr
  hf : s'.hf = s.hf
  k : s'.k = s.k

theorem post_yields (p : Par) (s : St D) : Yields C (post p s) fun s' => Reduced p s s' ∧ (p.lpsr = false → s' = s) := by
  unfold post
  split
  · rename_i hp
    refine .bindT Yields.look fun v => .ite (fun _ => .throw nofun) fun _ => ?_
    refine .bind' (ofExcept_yields (P := fun n => 4 ≤ n) (fun n hn => nextSize_ge hn) (nextSize_no_oof _ _)) fun n hn => ?_
    refine ofExcept_yields (fun s' hs => ⟨?_, fun h => by simp [hp] at h⟩) (reduceTo_no_oof _ _ _ _)
    unfold reduceTo at hs
    split at hs
    · rename_i hlt
      cases hr : nextArc p n with
      | error e => rw [hr] at hs; cases hs
      | ok m =>
        rw [hr] at hs; cases hs
        exact ⟨Or.inr ⟨n, m, hn, hlt, rfl, hr, rfl⟩, rfl, rfl, rfl, rfl⟩
    · cases hs; exact ⟨Or.inl ⟨rfl, rfl⟩, rfl, rfl, rfl, rfl⟩
  · exact .pure' ⟨⟨Or.inl ⟨rfl, rfl⟩, rfl, rfl, rfl, rfl⟩, fun _ => rfl⟩

theorem Reduced.sub {p : Par} {s s' : St D} (h : Reduced p s s') : s'.pop.Sublist s.pop := by
  rcases h.same with ⟨h, -⟩ | ⟨n, m, -, -, h, -⟩
  · rw [h]
  · rw [h]; exact remove_sub _ _

theorem Reduced.length {p : Par} {s s' : St D} (h : Reduced p s s') : s'.pop.length = s.pop.length ∨ 4 ≤ s'.pop.length := by
  rcases h.same with ⟨h, -⟩ | ⟨n, m, h4, hlt, h, -⟩
  · rw [h]; exact Or.inl rfl
  · rw [h, remove_length _ _ (by omega)]; right; omega

theorem learn_pop (p : Par) (l : List Succ) (s : St D) : (learn p l s).pop = s.pop := by
  unfold learn; split <;> rfl

theorem learn_arc (p : Par) (l : List Succ) (s : St D) : (learn p l s).arc = s.arc ∧ (learn p l s).cnt = s.cnt := by
  unfold learn; split <;> exact ⟨rfl, rfl⟩

theorem capacity_no_oof (p : Par) (n : ℕ) : capacity p n ≠ .error .outOfFuel := roundInt_no_oof _

omit [Arith] in
/-- The value at the position found is the largest (values that are not NaN). -/
theorem worstGo_max {all fs : List Fl} {j w : ℕ} {fw : Fl} (hall : ∀ v ∈ all, v ≠ .nan) (hfs : fs = all.drop j) (hw : all[w]? = some fw)
    (hmax : ∀ v ∈ all.take j, v ≤ fw) : ∃ m, all[worstGo fs j w fw]? = some m ∧ ∀ v ∈ all, v ≤ m := by
  induction fs generalizing j w fw with
  | nil =>
    refine ⟨fw, hw, fun v hv => hmax v ?_⟩
    have : all.length ≤ j := by
      have := congrArg List.length hfs; simp only [List.length_nil, List.length_drop] at this; omega
    rwa [List.take_of_length_le this]
  | cons f fs ih =>
    have hj : all[j]? = some f := by
      have := congrArg (·[0]?) hfs; simpa using this.symm
    have hfs' : fs = all.drop (j + 1) := by
      have := congrArg List.tail hfs; simpa [List.tail_drop] using this
    have hfn : f ≠ .nan := hall f (List.mem_of_getElem? hj)
    have hwn : fw ≠ .nan := hall fw (List.mem_of_getElem? hw)
    have htake : ∀ v, v ∈ all.take (j + 1) → v ∈ all.take j ∨ v = f := fun v hv => by
      rw [List.take_add_one, hj] at hv
      simpa using hv
    simp only [worstGo]
    split
    · rename_i hlt
      refine ih hfs' hj fun v hv => ?_
      rcases htake v hv with hv | rfl
      · exact Fl.le_trans (hmax v hv) (Fl.le_of_lt hlt)
      · exact Fl.le_refl hfn
    · rename_i hlt
      refine ih hfs' hw fun v hv => ?_
      rcases htake v hv with hv | rfl
      · exact hmax v hv
      · exact Fl.le_of_not_lt hwn hfn hlt

omit [Arith] in
/-- Removing the worst of at least two individuals leaves one that is at least as good as all of them. -/
theorem removeWorst_best {l : List (Ind D SA)} (hl : ∀ e ∈ l, e.f ≠ .nan) (h2 : 2 ≤ l.length) {e : Ind D SA} (he : e ∈ l) :
    ∃ e' ∈ removeWorst l, e'.f ≤ e.f := by
  have h0 : (l.map (·.f))[0]? = some ((l.map (·.f)).headD .nan) := by
    cases l with
    | nil => simp at h2
    | cons a l => simp
  obtain ⟨m, hm, hmax⟩ := worstGo_max (all := l.map (·.f)) (fs := l.map (·.f)) (j := 0) (w := 0) (fun v hv => by
    obtain ⟨e, he, rfl⟩ := List.mem_map.1 hv; exact hl e he) rfl h0 (by simp)
  unfold removeWorst
  generalize worstGo (l.map (·.f)) 0 0 ((l.map (·.f)).headD .nan) = k at hm ⊢
  obtain ⟨i, hi, rfl⟩ := List.getElem_of_mem he
  by_cases hik : i = k
  · subst hik
    have hmi : m = l[i].f := by simpa [List.getElem?_eq_getElem hi] using hm.symm
    obtain ⟨j, hj, hji⟩ : ∃ j, j < l.length ∧ j ≠ i := by
      by_cases h : i = 0
      · exact ⟨1, by omega, by omega⟩
      · exact ⟨0, by omega, by omega⟩
    refine ⟨l[j], List.mem_eraseIdx_iff_getElem.2 ⟨j, hj, hji, rfl⟩, ?_⟩
    rw [← hmi]
    exact hmax _ (List.mem_map.2 ⟨_, List.getElem_mem _, rfl⟩)
  · exact ⟨l[i], List.mem_eraseIdx_iff_getElem.2 ⟨i, hi, hik, rfl⟩, Fl.le_refl (hl _ (List.getElem_mem _))⟩

omit [Arith] in
/-- However many individuals are removed, one stays that is at least as good as any of them. -/
theorem remove_best (n : ℕ) {l : List (Ind D SA)} (hl : ∀ e ∈ l, e.f ≠ .nan) (hn : n < l.length) {e : Ind D SA} (he : e ∈ l) :
    ∃ e' ∈ remove n l, e'.f ≤ e.f := by
  induction n generalizing l e with
  | zero => exact ⟨e, he, Fl.le_refl (hl e he)⟩
  | succ n ih =>
    obtain ⟨e1, h1, hle⟩ := removeWorst_best hl (by omega) he
    have hlen := removeWorst_length l (by rintro rfl; simp at hn)
    obtain ⟨e2, h2, hle'⟩ := ih (l := removeWorst l) (fun e he => hl e ((removeWorst_sub l).subset he)) (by omega) h1
    exact ⟨e2, h2, Fl.le_trans hle' hle⟩

theorem Reduced.best {p : Par} {s s' : St D} (h : Reduced p s s') (hl : ∀ e ∈ s.pop, e.f ≠ .nan) {e : Ind D SA} (he : e ∈ s.pop) :
    ∃ e' ∈ s'.pop, e'.f ≤ e.f := by
  rcases h.same with ⟨h, -⟩ | ⟨n, m, h4, hlt, h, -⟩
  · rw [h]; exact ⟨e, he, Fl.le_refl (hl e he)⟩
  · rw [h]; exact remove_best _ hl (by omega) he

theorem wp_iter (hent : C.ent) (B : Box D) (p : Par) {s : St D} {xb : Vec D} {fxb : Fl} (hl : PopOK C s.pop g.b) (hinc : Inc C xb fxb g) :
    (iter B p s xb fxb).wp C (fun r g' => PopOK C r.1.pop g'.b ∧ r.1.pop.length ≤ s.pop.length ∧
      (r.1.pop.length = s.pop.length ∨ (p.lpsr = true ∧ 4 ≤ r.1.pop.length)) ∧ Inc C r.2.1 r.2.2 g' ∧ g'.c = g.c + s.pop.length ∧
      (C.NN → (∃ e ∈ s.pop, e.f ≤ fxb) → ∃ e ∈ r.1.pop, e.f ≤ r.2.2)) g := by
  simp only [iter, Prog.wp_bind']
  refine Yields.sortRecs.wp fun l hs => ?_
  have hlen : l.length = s.pop.length := hs.1.length_eq
  refine Prog.wp_mono (fun new g1 h1 => ?_) (Prog.wp_below (wp_evolve hent B p s l hinc.cov))
  obtain ⟨⟨hc1, hf1, hn1⟩, hb1⟩ := h1
  have hl1 : PopOK C l g1.b := fun e he => ((hl e (hs.1.mem_iff.1 he))).mono hb1
  refine (ofExcept_yields (P := fun _ => True) (fun _ _ => trivial) (capacity_no_oof _ _)).wp fun size _ => ?_
  refine (archive_quiet size l new (s.arc, s.cnt) (fun _ => True) trivial fun x a _ => (store_yields size x a).quiet).wp fun a _ => ?_
  have hpop : PopOK C (survivors l new) g1.b := fun e he => by
    obtain ⟨i, rfl⟩ := List.mem_ofFn.1 he
    split
    · exact hf1 i
    · exact hl1 _ (List.get_mem _ _)
  have hcov : Cov C (fun u => u = fxb ∨ ∃ e ∈ survivors l new, u = e.f) g1 := by
    refine (hc1.greedy (fit := fun i => (l.get i).f)
      (out := fun i => ((fun i => if (new i).f ≤ (l.get i).f then new i else l.get i) i).f)
      (fun i => ?_) fun hn i => ⟨hn _ _ (hf1 i).1, hn _ _ (hl1 _ (List.get_mem _ _)).1⟩).mono fun u hu => hu.imp_right fun ⟨i, hi⟩ => ?_
    · dsimp only
      split
      · exact Or.inl rfl
      · rename_i h; exact Or.inr ⟨rfl, fun hlt => h (Fl.le_of_lt hlt)⟩
    · exact ⟨_, List.mem_ofFn.2 ⟨i, rfl⟩, hi⟩
  refine wp_best hpop (hinc.toFit.mono hb1) hcov fun r hi => ?_
  refine (post_yields p _).wp fun s' hs' => ?_
  have hsub := hs'.1.sub
  rw [learn_pop] at hsub
  have hlen' := hs'.1.length
  rw [learn_pop] at hlen'
  have hsl : (survivors l new).length = s.pop.length := by simp [survivors, hlen]
  have hp' : PopOK C s'.pop g1.b := fun e he => hpop e (hsub.subset he)
  refine wp_best hp' hi.toFit (hi.cov.mono fun u hu => Or.inl hu) fun r hi => ⟨hp', ?_, ?_, hi, by rw [hn1, hlen], fun hn h0 => ?_⟩
  · have := hsub.length_le; simp only [hsl] at this; exact this
  · rcases hlen' with h | h
    · left; simp only [hsl] at h; exact h
    · cases hp : p.lpsr with
      | true => right; exact ⟨rfl, h⟩
      | false => left; rw [hs'.2 hp, learn_pop]; exact hsl
  · obtain ⟨e0, he0, hle0⟩ := h0
    have hnn : ∀ e ∈ survivors l new, e.f ≠ .nan := fun e he => hn _ _ (hpop e he).1
    have h1 : ∃ e ∈ survivors l new, e.f ≤ fxb := by
      obtain ⟨i, hi, rfl⟩ := List.getElem_of_mem (hs.1.mem_iff.2 he0)
      have hmem : (if (new ⟨i, hi⟩).f ≤ (l.get ⟨i, hi⟩).f then new ⟨i, hi⟩ else l.get ⟨i, hi⟩) ∈ survivors l new :=
        List.mem_ofFn.2 ⟨⟨i, hi⟩, rfl⟩
      refine ⟨_, hmem, ?_⟩
      split
      · rename_i h; exact Fl.le_trans h hle0
      · exact hle0
    have h2 : ∃ e ∈ survivors l new, e.f ≤ g1.b := by
      rcases hcov hn with hb | ⟨u, rfl | ⟨e, he, rfl⟩, hu⟩
      · obtain ⟨e, he, -⟩ := h1
        exact ⟨e, he, by rw [hb]; exact Fl.le_pinf (hnn e he)⟩
      · obtain ⟨e, he, hle⟩ := h1
        exact ⟨e, he, Fl.le_trans hle hu⟩
      · exact ⟨e, he, hu⟩
    obtain ⟨e, he, hle⟩ := h2
    obtain ⟨e', he', hle'⟩ := hs'.1.best (by rw [learn_pop]; exact hnn) (e := e) (by rw [learn_pop]; exact he)
    exact ⟨e', he', by rw [hi.eq hn]; exact Fl.le_trans hle' hle⟩

theorem initArc_no_oof (p : Par) : (initArc p : Except PyErr (List (Vec D))) ≠ .error .outOfFuel := by
  unfold initArc
  intro h
  cases hr : capacity p p.N with
  | error e => rw [hr] at h; cases h; exact capacity_no_oof _ _ hr
  | ok a =>
    rw [hr] at h
    simp only [bind, Except.bind] at h
    split at h <;> cases h

theorem wp_init {opt : OptType} {B : Box D} {p : Par} (hg : g.b = .pinf) {Q : St D → Ghost (Vec D) → Prop}
    (hQ : ∀ s g', PopOK C s.pop g'.b → s.pop.length = p.N → Cov C (· ∈ s.pop.map (·.f)) g' → g'.c = g.c + p.N → Q s g') :
    (init opt B p).wp C Q g := by
  simp only [init, Prog.wp_bind']
  refine DE.wp_init hg fun l g' h1 h2 h3 h4 => ?_
  exact (ofExcept_yields (P := fun _ => True) (fun _ _ => trivial) (initArc_no_oof p)).wp fun arc _ => hQ _ _ h1 h2 h3 h4

/-- Bounds on the number of evaluations per iteration. -/
def Par.cost (p : Par) : Cost := ⟨p.N, if p.lpsr then min p.N 4 else p.N, some p.N⟩

theorem verified (opt : OptType) (B : Box D) (p : Par) : Verified (alg opt B p) (fun _ => False) false true p.cost := by
  refine ⟨fun C (s : St D) b => PopOK C s.pop b ∧ s.pop.length ≤ p.N ∧ p.cost.lo ≤ s.pop.length,
    fun C _ hent _ => ⟨fun s b h => forall₂_map h.1, fun g hg => ?_, ?_⟩⟩
  · refine wp_init hg fun s g' h1 h2 h3 h4 => ⟨⟨h1, by omega, ?_⟩, h3, h4⟩
    simp only [Par.cost]; split <;> omega
  · intro s xb fxb g hI hF hc
    refine Prog.wp_mono (fun r g' h => ?_) (wp_iter (hent rfl) B p hI.1 ⟨hF, hc⟩)
    obtain ⟨h1, h2, h3, h4, h5, -⟩ := h
    obtain ⟨hI1, hI2, hI3⟩ := hI
    refine ⟨⟨h1, by omega, ?_⟩, h4.fit, h4.eq, ?_⟩
    · simp only [Par.cost] at hI3 ⊢
      split at hI3 <;> rename_i hp
      · rw [if_pos hp]; omega
      · rw [if_neg hp]
        rcases h3 with h3 | h3
        · omega
        · exact absurd h3.1 hp
    · refine ⟨by omega, fun h hh => ?_⟩
      cases hh
      omega

end NiaPy.SHADE
