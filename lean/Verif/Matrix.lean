import Verif.SafeF
import Verif.Algo.CS
import Verif.Algo.JDE
import Verif.Algo.SHADE

/-!
# C106: the repair functions of the library on vectors and on whole populations

`niapy/util/repair.py` written once more, now with the array operations it uses (`np.where`, indexing with the tuple it returns,
assignment to the places it returns), for arrays with one and with two dimensions. On vectors this is the model of `Verif.Repair`. On
a matrix only `limit` works, and `CuckooSearch` calls `task.repair` with a matrix (cs.py:99, 106). And `rand` needs a generator, a seed or
`None`, but jDE and SHADE pass it a method (jde.py:177, shade.py:282, ilshade.py:216).
-/

namespace NiaPy.Matrix
open NiaPy
variable {D : ℕ} {ι : Type} [DecidableEq ι]

/-- The places of an array in the order of `np.where`, the number of dimensions, and the column of each place (the bounds, which have one
dimension, are compared with the array by columns). -/
structure Shape (D : ℕ) (ι : Type) where
  ndim : ℕ
  places : List ι
  col : ι → Fin D

/-- A solution: an array with one dimension. -/
def vector (D : ℕ) : Shape D (Fin D) := ⟨1, List.finRange D, id⟩

/-- A population: an array with a row for each solution. -/
def matrix (n D : ℕ) : Shape D (Fin n × Fin D) := ⟨2, List.finRange n ×ˢ List.finRange D, Prod.snd⟩

/-- `np.where(cond)`: the places (as a tuple of `ndim` index arrays). -/
def Shape.whereTrue (s : Shape D ι) (cond : ι → Bool) : List ι := s.places.filter cond

/-- `a[ir]` for an array `a` with one dimension and the tuple `ir` of `ndim` index arrays: more indices than dimensions are an
`IndexError` (also if the index arrays are empty). -/
def Shape.pick (s : Shape D ι) (a : Vec D) (ir : List ι) : Except PyErr (List Fl) :=
  if s.ndim ≤ 1 then .ok (ir.map fun e => a (s.col e)) else .error .indexError

/-- `x[ir]` for the array itself. -/
def own (x : ι → Fl) (ir : List ι) : List Fl := ir.map x

/-- `x[ir] = v` -/
def put (x : ι → Fl) (ir : List ι) (v : List Fl) : ι → Fl := (ir.zip v).foldl (fun x p => Function.update x p.1 p.2) x

/-- `limit` (repair.py:7-19): `np.clip(x, lower, upper, out=x)` compares by columns. -/
def limit (s : Shape D ι) (B : Box D) (x : ι → Fl) : Except PyErr (ι → Fl) :=
  .ok fun e => Repair.clip (x e) (B.lo (s.col e)) (B.hi (s.col e))

/-- `limit_inverse` (repair.py:22-38). -/
def limitInverse (s : Shape D ι) (B : Box D) (x : ι → Fl) : Except PyErr (ι → Fl) := do
  let ir := s.whereTrue fun e => x e < B.lo (s.col e)
  let u ← s.pick B.hi ir
  let x := put x ir u
  let ir := s.whereTrue fun e => B.hi (s.col e) < x e
  let l ← s.pick B.lo ir
  return put x ir l

/-- `wang` (repair.py:41-57). -/
def wang [Arith] (s : Shape D ι) (B : Box D) (x : ι → Fl) : Except PyErr (ι → Fl) := do
  let ir := s.whereTrue fun e => x e < B.lo (s.col e)
  let u ← s.pick B.hi ir
  let l ← s.pick B.lo ir
  let x := put x ir (List.zipWith Fl.npMin u (List.zipWith (fun a b => 2 * a - b) l (own x ir)))
  let ir := s.whereTrue fun e => B.hi (s.col e) < x e
  let l ← s.pick B.lo ir
  let u ← s.pick B.hi ir
  return put x ir (List.zipWith Fl.npMax l (List.zipWith (fun a b => 2 * a - b) u (own x ir)))

/-- `rand` (repair.py:60-78); `draw e lo hi` is the number drawn for the place `e`. -/
def rand (s : Shape D ι) (draw : ι → Fl → Fl → Fl) (B : Box D) (x : ι → Fl) : Except PyErr (ι → Fl) := do
  let ir := s.whereTrue fun e => x e < B.lo (s.col e)
  let l ← s.pick B.lo ir
  let u ← s.pick B.hi ir
  let x := put x ir (List.zipWith (fun e (b : Fl × Fl) => draw e b.1 b.2) ir (l.zip u))
  let ir := s.whereTrue fun e => B.hi (s.col e) < x e
  let l ← s.pick B.lo ir
  let u ← s.pick B.hi ir
  return put x ir (List.zipWith (fun e (b : Fl × Fl) => draw e b.1 b.2) ir (l.zip u))

/-- `lower[ir] + x[ir] % (upper[ir] - lower[ir])` -/
def wrapped [Arith] (l u v : List Fl) : List Fl := List.zipWith (fun a (b : Fl × Fl) => a + b.2 % (b.1 - a)) l (u.zip v)

/-- `reflect` (repair.py:81-97). -/
def reflect [Arith] (s : Shape D ι) (B : Box D) (x : ι → Fl) : Except PyErr (ι → Fl) := do
  let ir := s.whereTrue fun e => B.hi (s.col e) < x e
  let l ← s.pick B.lo ir
  let u ← s.pick B.hi ir
  let x := put x ir (wrapped l u (own x ir))
  let ir := s.whereTrue fun e => x e < B.lo (s.col e)
  let l ← s.pick B.lo ir
  let u ← s.pick B.hi ir
  return put x ir (wrapped l u (own x ir))

/-- The repair functions exported by `niapy.util.repair`. -/
inductive Lib where
  | limit | limitInverse | wang | rand | reflect
  deriving DecidableEq

/-- The function itself. -/
def Lib.run [Arith] (r : Lib) (s : Shape D ι) (draw : ι → Fl → Fl → Fl) (B : Box D) (x : ι → Fl) : Except PyErr (ι → Fl) :=
  match r with
  | .limit => Matrix.limit s B x
  | .limitInverse => Matrix.limitInverse s B x
  | .wang => Matrix.wang s B x
  | .rand => Matrix.rand s draw B x
  | .reflect => Matrix.reflect s B x

/-- The model of the function on vectors (`Verif.Repair`). -/
def Lib.model [Arith] (r : Lib) (rng : Rng) (k : ℕ) (B : Box D) (x : Vec D) : Vec D :=
  match r with
  | .limit => Repair.limit B x
  | .limitInverse => Repair.limitInverse B x
  | .wang => Repair.wang B x
  | .rand => Repair.rand B rng k x
  | .reflect => Repair.reflect B x

theorem foldl_update (l : List ι) (g : ι → Fl) (x : ι → Fl) :
    (l.map fun e => (e, g e)).foldl (fun x p => Function.update x p.1 p.2) x = fun e => if e ∈ l then g e else x e := by
  induction l generalizing x with
  | nil => simp
  | cons a l ih =>
    rw [List.map_cons, List.foldl_cons, ih]
    funext e
    by_cases h : e ∈ l
    · simp [h]
    · by_cases ha : e = a
      · subst ha; simp [h]
      · simp [h, ha]

theorem put_map (l : List ι) (g : ι → Fl) (x : ι → Fl) : put x l (l.map g) = fun e => if e ∈ l then g e else x e := by
  rw [← foldl_update l g x, put]
  congr 1
  induction l with
  | nil => rfl
  | cons a l ih => simp [ih]

theorem put_where {cond : Fin D → Bool} {g x : Vec D} :
    put x ((vector D).whereTrue cond) (((vector D).whereTrue cond).map g) = Repair.setWhere cond g x := by
  rw [put_map]
  funext e
  simp [Shape.whereTrue, vector, Repair.setWhere]

theorem zipWith_maps {α β γ δ : Type} (f : α → β → γ) (g : δ → α) (h : δ → β) (l : List δ) :
    List.zipWith f (l.map g) (l.map h) = l.map fun e => f (g e) (h e) := by
  induction l with
  | nil => rfl
  | cons a l ih => simp [ih]

theorem zip_maps {α β δ : Type} (g : δ → α) (h : δ → β) (l : List δ) : (l.map g).zip (l.map h) = l.map fun e => (g e, h e) := by
  induction l with
  | nil => rfl
  | cons a l ih => simp [ih]

theorem zipWith_self {β γ δ : Type} (f : δ → β → γ) (h : δ → β) (l : List δ) :
    List.zipWith f l (l.map h) = l.map fun e => f e (h e) := by
  induction l with
  | nil => rfl
  | cons a l ih => simp [ih]

theorem pick_vector (a : Vec D) (ir : List (Fin D)) : (vector D).pick a ir = .ok (ir.map a) := rfl

theorem pick_matrix {n : ℕ} (a : Vec D) (ir : List (Fin n × Fin D)) : (matrix n D).pick a ir = .error .indexError := rfl

/-- On a solution each function of the library does what the model of `Verif.Repair` says. -/
theorem C106_vector [Arith] (r : Lib) (rng : Rng) (k : ℕ) (B : Box D) (x : Vec D) :
    r.run (vector D) (fun i lo hi => rng.unif k (i + 1) lo hi) B x = .ok (r.model rng k B x) := by
  cases r with
  | limit => rfl
  | limitInverse =>
    show Matrix.limitInverse _ _ _ = _
    simp only [Matrix.limitInverse, pick_vector, bind, Except.bind, pure, Except.pure, put_where]
    rfl
  | wang =>
    show Matrix.wang _ _ _ = _
    simp only [Matrix.wang, pick_vector, bind, Except.bind, pure, Except.pure, own, zipWith_maps, put_where]
    rfl
  | rand =>
    show Matrix.rand _ _ _ _ = _
    simp only [Matrix.rand, pick_vector, bind, Except.bind, pure, Except.pure, zip_maps, zipWith_self, put_where]
    rfl
  | reflect =>
    show Matrix.reflect _ _ _ = _
    simp only [Matrix.reflect, pick_vector, bind, Except.bind, pure, Except.pure, own, wrapped, zip_maps, zipWith_maps, put_where]
    rfl

/-- On a population `limit` works row by row; every other function raises `IndexError`, even if nothing is out of bounds. -/
theorem C106_matrix [Arith] {n : ℕ} (r : Lib) (draw : Fin n × Fin D → Fl → Fl → Fl) (B : Box D) (x : Fin n × Fin D → Fl) :
    r.run (matrix n D) draw B x = if r = .limit then .ok (fun e => Repair.limit B (fun j => x (e.1, j)) e.2) else .error .indexError := by
  cases r <;> rfl

/-! ### The generator `rand` is given -/

/-- The argument `rng` in the calls of `task.repair`. -/
inductive RngArg where
  | none
  | generator
  | method
  deriving DecidableEq

/-- `numpy.random.default_rng(rng)`: a new generator for `None`, the generator itself, `TypeError` for a function. -/
def defaultRng : RngArg → Except PyErr Unit
  | .method => .error .typeError
  | _ => .ok ()

/-- `rand` (repair.py:60-78) with its first line. -/
def randArg (a : RngArg) (s : Shape D ι) (draw : ι → Fl → Fl → Fl) (B : Box D) (x : ι → Fl) : Except PyErr (ι → Fl) := do
  defaultRng a
  Matrix.rand s draw B x

/-- A repair function with the generator argument of the call; only `rand` looks at it. -/
def Lib.call [Arith] (r : Lib) (a : RngArg) (s : Shape D ι) (draw : ι → Fl → Fl → Fl) (B : Box D) (x : ι → Fl) : Except PyErr (ι → Fl) :=
  if r = .rand then randArg a s draw B x else r.run s draw B x

/-- With `None` or a generator every function repairs every solution; with a method `rand` raises `TypeError`, even if nothing is out of
bounds, and the other functions do not mind. -/
theorem C106_call [Arith] (r : Lib) (a : RngArg) (rng : Rng) (k : ℕ) (B : Box D) (x : Vec D) :
    r.call a (vector D) (fun i lo hi => rng.unif k (i + 1) lo hi) B x =
      if r = .rand ∧ a = .method then .error .typeError else .ok (r.model rng k B x) := by
  have h := C106_vector r rng k B x
  by_cases hr : r = .rand
  · subst hr
    rw [Lib.call, if_pos rfl]
    cases a with
    | method => rfl
    | none => rw [if_neg (by simp)]; exact h
    | generator => rw [if_neg (by simp)]; exact h
  · rw [Lib.call, if_neg hr, if_neg (by simp [hr])]
    exact h

end NiaPy.Matrix

namespace NiaPy
variable {X α β : Type}

/-- The calls of `task.repair` that are not given the generator of the algorithm. -/
def Op.isUnseeded : Op X → Bool
  | .repair false _ => true
  | _ => false

/-- The program with a repair function that raises `e` in these calls. -/
def Prog.deny (e : PyErr) : Prog X α → Prog X α
  | .pure a => .pure a
  | .throw e' => .throw e'
  | .op o k => if o.isUnseeded then Prog.deny e (k (.error e)) else .op o fun r => Prog.deny e (k r)

/-- The algorithm on such a task. -/
def Alg.deny (e : PyErr) (A : Alg X) : Alg X where
  σ := A.σ
  init := A.init.deny e
  pop := A.pop
  fit := A.fit
  iter s xb fxb := (A.iter s xb fxb).deny e

theorem Prog.deny_bind (e : PyErr) (p : Prog X α) (f : α → Prog X β) : (p.bind f).deny e = (p.deny e).bind fun a => (f a).deny e := by
  induction p with
  | pure a => rfl
  | throw e' => rfl
  | op o k ih =>
    show Prog.deny e (.op o fun r => (k r).bind f) = _
    rw [Prog.deny, Prog.deny]
    by_cases h : o.isUnseeded = true
    · rw [if_pos h, if_pos h]; exact ih _
    · rw [if_neg h, if_neg h]
      show _ = Prog.op o _
      congr 1
      funext r
      exact ih r

theorem Prog.deny_repair (e : PyErr) (x : X) (f : X → Prog X β) : ((Prog.repair x false).bind f).deny e = .throw e := rfl

/-- The program does not return if those calls raise. -/
structure Fails (env : Env X) (e : PyErr) (p : Prog X α) : Prop where
  post : Post env (p.deny e) fun _ => False

variable {env : Env X} {e : PyErr}

theorem Fails.left {p : Prog X α} {f : α → Prog X β} (h : Fails env e p) : Fails env e (p >>= f) :=
  ⟨by show Post env (Prog.deny e (p.bind f)) _
      rw [Prog.deny_bind]; exact .bind h.post fun _ h => h.elim⟩

theorem Fails.right {p : Prog X α} {f : α → Prog X β} (h : ∀ a, Fails env e (f a)) : Fails env e (p >>= f) :=
  ⟨by show Post env (Prog.deny e (p.bind f)) _
      rw [Prog.deny_bind]; exact .bind (P := fun _ => True) .any fun a _ => (h a).post⟩

theorem Fails.repair (x : X) (f : X → Prog X β) : Fails env e (Prog.repair x false >>= f) := ⟨fun _ _ _ h => by cases h⟩

theorem Fails.throw (e' : PyErr) : Fails env e (Prog.throw e' : Prog X α) := ⟨fun _ _ _ h => by cases h⟩

theorem Fails.tabM {n : ℕ} {f : Fin n → Prog X α} (hn : 0 < n) (h : ∀ i, Fails env e (f i)) : Fails env e (tabM n f) := by
  cases n with
  | zero => omega
  | succ n => exact Fails.left (h 0)

theorem Fails.getBest (xb : X) (fxb : Fl) : Fails env e (Prog.getBest [] [] xb fxb) := Fails.throw _

/-- An algorithm no iteration of which is completed: every history of a run consists of the initial population, and a run returns only
if the task has stopped by then. -/
theorem Alg.no_iteration {A : Alg X} (h : ∀ s xb fxb, Post env (A.iter s xb fxb) fun _ => False) :
    (∀ ncb hist w, A.Trace env ncb hist w → hist.length = 1) ∧
    ∀ main ncb fuel res, (A.exec env main ncb fuel).1 = .ok ⟨some res, none⟩ →
      stoppingCondition env.toTaskCfg (A.exec env main ncb fuel).2.st = true := by
  refine ⟨fun ncb hist w ht => ?_, fun main ncb fuel res h => ?_⟩
  · cases ht with
    | start _ => rfl
    | round _ _ hr =>
      obtain ⟨w1, w2, h1, -⟩ := round_iter hr
      exact (h _ _ _ _ _ _ h1).elim
  · rw [exec_eq] at h ⊢
    simp only at h ⊢
    cases hb : (A.execBody env ncb fuel).1 with
    | error e => rw [hb] at h; simp only at h; split at h <;> cases h
    | ok r =>
      obtain ⟨hist, w, ht, hs, hf⟩ := body_trace hb
      have hst := fireAll_st env ncb .afterRun w
      rw [hf] at hst
      simp only at hst
      rw [hst]
      exact hs

end NiaPy

namespace NiaPy.JDE
open NiaPy DE
variable [Arith] {D : ℕ}

theorem evolve_fails {env : Env (Vec D)} {e : PyErr} (strat : Strategy D) (p : Par) (l : List (Ind D SA)) (xb : Vec D) (hl : 0 < l.length) :
    Fails env e (evolve strat p l xb) :=
  .right fun _ => .right fun _ => .tabM hl fun _ => .repair _ _

/-- C106 is false of jDE: with `rand` no iteration is completed, on any problem, from any population and with any random numbers. -/
theorem C106_jde_false (opt : OptType) (B : Box D) (N : ℕ) (strat : Strategy D) (p : Par) (env : Env (Vec D)) :
    (∀ l xb fxb, Post env (((alg opt B N strat p).deny .typeError).iter l xb fxb) fun _ => False) ∧
    (∀ ncb hist w, ((alg opt B N strat p).deny .typeError).Trace env ncb hist w → hist.length = 1) ∧
    ∀ main ncb fuel res, (((alg opt B N strat p).deny .typeError).exec env main ncb fuel).1 = .ok ⟨some res, none⟩ →
      stoppingCondition env.toTaskCfg (((alg opt B N strat p).deny .typeError).exec env main ncb fuel).2.st = true := by
  have key : ∀ (l : List (Ind D SA)) xb fxb, Fails env .typeError (iter (evolve strat p) select pure l xb fxb) := by
    intro l xb fxb
    cases l with
    | nil => exact .right fun new => .left (.left (.getBest _ _))
    | cons a l => exact .left (evolve_fails strat p _ xb (Nat.succ_pos _))
  exact ⟨fun l xb fxb => (key l xb fxb).post, Alg.no_iteration fun l xb fxb => (key l xb fxb).post⟩

omit [Arith] in
/-- A run on the sphere function ends with `TypeError`; without the failing calls it returns. -/
example : (letI := NiaPy.Ex.arith; match ((alg .minimization (NiaPy.Ex.box 1) 4 crossRand1 Par.default).deny .typeError |>.exec NiaPy.Ex.env2 true 0 5).1 with
      | .error .typeError => true | _ => false) = true ∧
    (letI := NiaPy.Ex.arith; match ((alg .minimization (NiaPy.Ex.box 1) 4 crossRand1 Par.default).exec NiaPy.Ex.env2 true 0 5).1 with
      | .ok _ => true | _ => false) = true := by decide +kernel

end NiaPy.JDE

namespace NiaPy.SHADE
open NiaPy DE
variable [Arith] {D : ℕ}

theorem evolve_fails {env : Env (Vec D)} {e : PyErr} (B : Box D) (p : Par) (s : St D) (l : List (Ind D JDE.SA)) (hl : 0 < l.length) :
    Fails env e (evolve B p s l) :=
  .right fun _ => .right fun _ => .right fun _ => .right fun _ => .tabM hl fun _ => .repair _ _

/-- C106 is false of SHADE, L-SHADE and iL-SHADE in the same way. -/
theorem C106_shade_false (opt : OptType) (B : Box D) (p : Par) (env : Env (Vec D)) :
    (∀ s xb fxb, Post env (((alg opt B p).deny .typeError).iter s xb fxb) fun _ => False) ∧
    (∀ ncb hist w, ((alg opt B p).deny .typeError).Trace env ncb hist w → hist.length = 1) ∧
    ∀ main ncb fuel res, (((alg opt B p).deny .typeError).exec env main ncb fuel).1 = .ok ⟨some res, none⟩ →
      stoppingCondition env.toTaskCfg (((alg opt B p).deny .typeError).exec env main ncb fuel).2.st = true := by
  have key : ∀ (s : St D) xb fxb, Fails env .typeError (iter B p s xb fxb) := by
    intro s xb fxb
    refine .right fun l => ?_
    cases l with
    | nil => exact .right fun new => .right fun _ => .right fun _ => .left (.getBest _ _)
    | cons a l => exact .left (evolve_fails B p s _ (Nat.succ_pos _))
  exact ⟨fun l xb fxb => (key l xb fxb).post, Alg.no_iteration fun l xb fxb => (key l xb fxb).post⟩

end NiaPy.SHADE

namespace NiaPy.CS
open NiaPy Matrix
variable [Arith] {D N : ℕ}

/-- `task.repair(population, rng=self.rng)` with a function of the library. -/
def repairAll (r : Lib) (draw : Fin N × Fin D → Fl → Fl → Fl) (B : Box D) (x : Fin N → Vec D) : Prog (Vec D) (Fin N → Vec D) := do
  let y ← Prog.ofExcept (r.run (matrix N D) draw B fun e => x e.1 e.2)
  return fun i j => y (i, j)

/-- `get_cuckoos` (cs.py:96-99). -/
def getCuckoosLib (r : Lib) (draw : Fin N × Fin D → Fl → Fl → Fl) (B : Box D) (pop : Fin N → Vec D) (xb : Vec D) : Prog (Vec D) (Fin N → Vec D) := do
  let l ← levyRows N D
  let z ← tabM N fun _ => normVec D 0 1
  repairAll r draw B fun i j => pop i j + l i j * (pop i j - xb j) * z i j

/-- `empty_nests` (cs.py:101-106). -/
def emptyNestsLib (r : Lib) (draw : Fin N × Fin D → Fl → Fl → Fl) (B : Box D) (pa : Fl) (pop : Fin N → Vec D) : Prog (Vec D) (Fin N → Vec D) := do
  let a ← tabM N fun _ => randVec D
  let i ← permIdx N
  let j ← permIdx N
  let u ← Prog.rand
  repairAll r draw B fun k d => pop k d + u * (pop (i k) d - pop (j k) d) * (if pa < a k d then 1 else 0)

/-- `run_iteration` (cs.py:108-145) for a task whose repair function is one of the library. -/
def iterLib (r : Lib) (draw : Fin N × Fin D → Fl → Fl → Fl) (B : Box D) (pa : Fl) (s : St D N) (xb : Vec D) (fxb : Fl) :
    Prog (Vec D) (St D N × Vec D × Fl) := do
  let new ← getCuckoosLib r draw B s.pop xb
  let newF ← evalRows new
  let (pop, fit) := keepBetter s.pop new s.fit newF
  let (xb, fxb) ← Prog.getBest (List.ofFn pop) (List.ofFn fit) xb fxb
  let new ← emptyNestsLib r draw B pa pop
  let newF ← evalRows new
  let (pop, fit) := keepBetter pop new fit newF
  let (xb, fxb) ← Prog.getBest (List.ofFn pop) (List.ofFn fit) xb fxb
  return (⟨pop, fit⟩, xb, fxb)

/-- `CuckooSearch` with a repair function of the library. -/
def algLib (r : Lib) (draw : Fin N × Fin D → Fl → Fl → Fl) (B : Box D) (pa : Fl) : Alg (Vec D) where
  σ := St D N
  init := init B N
  pop s := List.ofFn s.pop
  fit s := List.ofFn s.fit
  iter := iterLib r draw B pa

/-- With `limit`, the default, every row is repaired as `Verif.Algo.CS` says. -/
theorem repairAll_limit (draw : Fin N × Fin D → Fl → Fl → Fl) (B : Box D) (x : Fin N → Vec D) :
    repairAll .limit draw B x = return fun i => Repair.limit B (x i) := by
  rw [repairAll, C106_matrix, if_pos rfl]
  rfl

/-- With any other function the call raises. -/
theorem repairAll_other {r : Lib} (hr : r ≠ .limit) (draw : Fin N × Fin D → Fl → Fl → Fl) (B : Box D) (x : Fin N → Vec D) :
    repairAll r draw B x = .throw .indexError := by
  rw [repairAll, C106_matrix, if_neg hr]
  rfl

variable (r : Lib) (draw : Fin N × Fin D → Fl → Fl → Fl) (B : Box D) (pa : Fl) (env : Env (Vec D))

/-- C106 is false of cuckoo search: with `limit_inverse`, `wang`, `rand` or `reflect` no iteration is completed, on any problem, from any
population and with any random numbers. -/
theorem C106_cs_iteration_false (hr : r ≠ .limit) (s : St D N) (xb : Vec D) (fxb : Fl) : Post env (iterLib r draw B pa s xb fxb) fun _ => False := by
  unfold iterLib getCuckoosLib
  refine Post.bind' (P := fun _ => False) ?_ fun _ h => h.elim
  refine .bind' .any fun _ _ => .bind' .any fun _ _ => ?_
  rw [repairAll_other hr]
  exact fun _ _ _ h => by cases h

/-- Hence every history of a run consists of the initial population, and a run returns only if the task has stopped by then. -/
theorem C106_cs_false (hr : r ≠ .limit) :
    (∀ ncb hist w, (algLib r draw B pa).Trace env ncb hist w → hist.length = 1) ∧
    ∀ main ncb fuel res, ((algLib r draw B pa).exec env main ncb fuel).1 = .ok ⟨some res, none⟩ →
      stoppingCondition env.toTaskCfg ((algLib r draw B pa).exec env main ncb fuel).2.st = true :=
  Alg.no_iteration (C106_cs_iteration_false r draw B pa env hr)

omit [Arith] in
/-- Indeed: a run with `wang` on the sphere function ends with `IndexError`, and one with `limit` does not. -/
example : ((@algLib NiaPy.Ex.arith 1 2 .wang (fun _ lo _ => lo) (NiaPy.Ex.box 1) (.fin (1 / 4))).exec NiaPy.Ex.env2 true 0 5).1 = .error .indexError := by
  have h : (match ((@algLib NiaPy.Ex.arith 1 2 .wang (fun _ lo _ => lo) (NiaPy.Ex.box 1) (.fin (1 / 4))).exec NiaPy.Ex.env2 true 0 5).1 with
      | .error .indexError => true | _ => false) = true := by decide +kernel
  split at h
  · assumption
  · cases h

omit [Arith] in
example : (match ((@algLib NiaPy.Ex.arith 1 2 .limit (fun _ lo _ => lo) (NiaPy.Ex.box 1) (.fin (1 / 4))).exec NiaPy.Ex.env2 true 0 5).1 with
      | .ok _ => true | _ => false) = true := by decide +kernel

end NiaPy.CS
