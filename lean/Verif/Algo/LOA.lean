import Verif.Loose
import Verif.Runs
import Verif.Algo.DE
import Verif.Algo.FWA

/-!
# Lion optimization algorithm (`niapy/algorithms/basic/loa.py`)

The population is an array of references to `Lion` objects; the same object may occur twice in it (`population[-0:]`, loa.py:665), so the
objects are kept in a heap. The arrays `x` and `current_x` are treated as values. Copies of a lion made by `copy.copy` (loa.py:835, 907)
share them; `x` is never changed in place, but `current_x` is, so this differs from the code if a lion and its copy are both in the
population, which needs that the lion occurred twice before.
-/

namespace NiaPy.LOA
variable [Arith] {D N : ℕ}

/-- Parameters (loa.py:139-185). -/
structure Par where
  nomadRatio : Fl
  prides : ℕ
  femaleRatio : Fl
  roaming : Fl
  mating : Fl
  mutation : Fl
  immigration : Fl

/-- `Lion` (loa.py:16-77). `pride` is the number of the pride, that of the nomads (`num_of_prides`) standing for `-1`, which is the index
of the same entry of the arrays. `has_pride` is never read. -/
structure Lion (D : ℕ) where
  x : Vec D
  f : Fl
  female : Bool
  pride : ℕ
  group : ℕ
  cx : Vec D
  cf : Fl
  prev : Fl
  improved : Bool

/-- A column of `gender_distribution` or `excess`, or `pride_size`; the nomads have the index `num_of_prides`. -/
abbrev Tally := ℕ → ℤ

/-- `t[i] += d` -/
def Tally.add (t : Tally) (i : ℕ) (d : ℤ) : Tally := Function.update t i (t i + d)

/-- State of a run: objects, number of objects, population, `pride_size`, and the columns of `gender_distribution`. -/
structure Herd (D : ℕ) where
  heap : ℕ → Lion D
  next : ℕ
  pop : List ℕ
  size : Tally
  fem : Tally
  mal : Tally

/-- The two columns of `excess`. -/
structure Excess where
  fem : Tally
  mal : Tally

/-- Start or end of a slice of a sequence of length `n`. -/
def pyPos (n : ℕ) (i : ℤ) : ℕ := (if i < 0 then i + n else i).toNat

/-- `l[a:b]` -/
def slice {α : Type} (l : List α) (a b : ℤ) : List α := (l.take (pyPos l.length b)).drop (pyPos l.length a)

/-- `l[a:]` -/
def sliceFrom {α : Type} (l : List α) (a : ℤ) : List α := l.drop (pyPos l.length a)

/-- `l[:b]` -/
def sliceTo {α : Type} (l : List α) (b : ℤ) : List α := l.take (pyPos l.length b)

/-- `l[i]` -/
def pyGet {α : Type} (l : List α) (i : ℤ) : Except PyErr α :=
  if i < -l.length then .error .indexError
  else match l[pyPos l.length i]? with
    | some a => .ok a
    | none => .error .indexError

/-- `round(v)` as an integer. -/
def roundZ (v : Fl) : Except PyErr ℤ :=
  match DE.pyRound v with
  | .ok r => .ok (FWA.toInt r)
  | .error e => .error e

/-- An integer as a float. -/
def ofZ (z : ℤ) : Fl := .fin z

/-! ### Initialisation -/

/-- Numbers of lions and females of the prides (loa.py:291-298, 307, 313). -/
def sizes (N : ℕ) (p : Par) : Except PyErr (Tally × Tally) := do
  let nomad ← roundZ (p.nomadRatio * Fl.ofNat N)
  if p.prides = 0 then .error .zeroDivisionError
  else
    let size : Tally := fun i => if i = p.prides then nomad
      else (N - nomad) / p.prides + if (i : ℤ) < (N - nomad) % p.prides then 1 else 0
    let females ← (List.range (p.prides + 1)).mapM fun i =>
      roundZ ((if i = p.prides then 1 - p.femaleRatio else p.femaleRatio) * ofZ (size i))
    .ok (size, fun i => females.getD i 0)

/-- The pride of the lion with number `k` and its position there (loa.py:301-323); the slices are disjoint and ascending, if the number of
nomads is not negative and at most `N`. -/
def place (size : Tally) (P : ℕ) (k : ℕ) : ℕ × ℤ :=
  let i := ((List.range P).filter fun i => ((List.range (i + 1)).map size).sum ≤ (k : ℤ)).length
  (i, k - ((List.range i).map size).sum)

/-- `init_population` (loa.py:255-326). An empty population raises later, in `get_best`. The ratio of nomads is supposed to be between 0 and 1. -/
def init (opt : OptType) (B : Box D) (N : ℕ) (p : Par) : Prog (Vec D) (Herd D) := do
  let pop ← defaultIndividualInit opt B N
  let (size, num) ← Prog.ofExcept (sizes N p)
  if h : 0 < N then do
    let lion := fun k : Fin N =>
      let (i, j) := place size p.prides k
      (⟨(pop k).x, (pop k).f, decide (j < num i), i, 0, (pop k).x, (pop k).f, (pop k).f, true⟩ : Lion D)
    let count := fun (fem : Bool) (i : ℕ) => (((List.finRange N).filter fun k => (lion k).pride = i ∧ (lion k).female = fem).length : ℤ)
    return ⟨fun k => if hk : k < N then lion ⟨k, hk⟩ else lion ⟨0, h⟩, N, List.range N, size, count true, count false⟩
  else .throw .valueError

/-! ### Moves -/

/-- Keep the current position, if it is better (loa.py:377-379, 486-488, 536-538, 556-558). -/
def Lion.record (l : Lion D) : Lion D := if l.cf < l.f then { l with x := l.cx, f := l.cf } else l

/-- Move to the repaired position and evaluate it (e.g. loa.py:355-356). -/
def Lion.goto (l : Lion D) (y : Vec D) : Prog (Vec D) (Lion D) := do
  let cx ← Prog.repair y false
  let cf ← Prog.eval cx
  return { l with cx := cx, cf := cf }

/-- One coordinate in `_move_opposition` (loa.py:349-353). -/
def oppose (prey c : Fl) : Prog (Vec D) Fl :=
  let o := Fl.ofNat 2 * prey - c
  if o < prey then Prog.unif o prey
  else if prey < o then Prog.unif prey o
  else return c

/-- One coordinate in `_move_center` (loa.py:360-363). -/
def centre (prey c : Fl) : Prog (Vec D) Fl :=
  if c < prey then Prog.unif c prey
  else if prey < c then Prog.unif prey c
  else return c

/-- `_move_hunter` (loa.py:347-374). -/
def moveHunter (l : Lion D) (prey : Vec D) (right left centre' : ℕ) : Prog (Vec D) (Lion D) :=
  if l.group = left ∨ l.group = right then do
    let y ← tabM D fun i => oppose (prey i) (l.cx i)
    l.goto y
  else if l.group = centre' then do
    let y ← tabM D fun i => centre (prey i) (l.cx i)
    l.goto y
  else return l

/-- `_update_prey` (loa.py:376-385): the prey, for a lion `l` after its move, which is then recorded. -/
def updatePrey (l : Lion D) (prey : Vec D) : Prog (Vec D) (Vec D) :=
  if l.cf < l.f then do
    let r ← Prog.rand
    Prog.repair (fun j => prey j + r * (1 - l.cf / l.prev) * (prey j - l.cx j)) false
  else return prey

/-- The loop of `_initialize_hunt` (loa.py:333-340). -/
def gather (pride : List ℕ) (heap : ℕ → Lion D) : Prog (Vec D) ((ℕ → Lion D) × (ℕ → Fl) × Vec D × List ℕ) :=
  forList pride (fun k (a : (ℕ → Lion D) × (ℕ → Fl) × Vec D × List ℕ) => do
    let (heap, fit, prey, hunters) := a
    let (l, fit) ← (if (heap k).female then do
        let g ← Prog.int 4
        return ({ heap k with group := g }, Function.update fit g (fit g + (heap k).cf))
      else return (heap k, fit) : Prog (Vec D) (Lion D × (ℕ → Fl)))
    return if l.group ≠ 0 then (Function.update heap k l, fit, fun j => prey j + l.cx j, hunters ++ [k])
      else (Function.update heap k l, fit, prey, hunters)) (heap, fun _ => 0, fun _ => 0, [])

/-- One pride in `hunting` (loa.py:406-411). -/
def hunt (pride : List ℕ) (heap : ℕ → Lion D) : Prog (Vec D) (ℕ → Lion D) := do
  let (heap, fit, prey, hunters) ← gather pride heap
  let prey ← Prog.repair (if hunters.isEmpty then prey else fun j => prey j / Fl.ofNat hunters.length) false
  let order ← Prog.argsort [fit 1, fit 2, fit 3]
  let (heap, _) ← forList hunters (fun k (a : (ℕ → Lion D) × Vec D) => do
    let l ← moveHunter (a.1 k) a.2 (order.getD 0 0 + 1) (order.getD 1 0 + 1) (order.getD 2 0 + 1)
    let prey ← updatePrey l a.2
    return (Function.update a.1 k l.record, prey)) (heap, prey)
  return heap

/-- A loop over the prides (without the nomads): `f` gets the number of the pride and its members. -/
def forPrides (P : ℕ) (h : Herd D) (f : ℕ → List ℕ → (ℕ → Lion D) → Prog (Vec D) (ℕ → Lion D)) : Prog (Vec D) (Herd D) := do
  let (heap, _) ← forList (List.range P) (fun i (a : (ℕ → Lion D) × ℤ) => do
    let heap ← f i (slice h.pop a.2 (a.2 + h.size i)) a.1
    return (heap, a.2 + h.size i)) (h.heap, 0)
  return { h with heap := heap }

/-- `hunting` (loa.py:387-415). -/
def hunting (P : ℕ) (h : Herd D) : Prog (Vec D) (Herd D) := forPrides P h fun _ pride heap => hunt pride heap

/-- Python's `min(l, key=…)` of a list of lions: the first one with the least fitness. -/
def fittest (heap : ℕ → Lion D) : ℕ → List ℕ → ℕ
  | m, [] => m
  | m, k :: ks => fittest heap (if (heap k).f < (heap m).f then k else m) ks

/-- The winner of the tournament (loa.py:438-454). -/
def winner (heap : ℕ → Lion D) (pride : List ℕ) : Prog (Vec D) ℕ :=
  match pride with
  | [] => .throw .indexError
  | [k] => return k
  | pride => do
    let n := (pride.filter fun k => (heap k).improved).length
    let c ← choiceFin pride.length (max 2 ((n + 1) / 2))
    let sel := List.ofFn fun i => pride.get (c i)
    return fittest heap (sel.headD 0) sel.tail

/-- The direction orthogonal to `r1` (loa.py:464-470). -/
def ortho (r1 : Vec D) : Prog (Vec D) (Vec D) :=
  if Fl.eqB (norm2 r1) 0 then do
    let i ← Prog.int D
    return fun j => if j.val = i then 1 else 0
  else do
    let v ← normVec D 0 1
    return fun j => v j - (vsum fun i => r1 i * v i) / (vsum fun i => r1 i * r1 i) * r1 j

/-- One female in `move_to_safe_place` (loa.py:461-488). -/
def safer (range : Fl) (wx : Vec D) (l : Lion D) : Prog (Vec D) (Lion D) := do
  let r1 : Vec D := fun j => wx j - l.x j
  let r2 ← ortho r1
  let d := norm2 r1 / range
  let rnd ← Prog.rand
  let u ← Prog.unif (-1) 1
  let angle ← Prog.unif (-piF / Fl.ofNat 6) (piF / Fl.ofNat 6)
  let l ← l.goto fun j => l.cx j + Fl.ofNat 2 * d * rnd * r1 j + u * Arith.fn .tan angle * d * r2 j
  return l.record

/-- `np.linalg.norm(task.upper[0] - task.lower[0])` (loa.py:431, 508). -/
def searchRange (B : Box D) : Except PyErr Fl :=
  if h : 0 < D then .ok (Fl.abs (B.hi ⟨0, h⟩ - B.lo ⟨0, h⟩)) else .error .indexError

/-- `move_to_safe_place` (loa.py:417-492). -/
def moveToSafePlace (B : Box D) (P : ℕ) (h : Herd D) : Prog (Vec D) (Herd D) := do
  let range ← Prog.ofExcept (searchRange B)
  forPrides P h fun _ pride heap => do
    let w ← winner heap pride
    let wx := (heap w).x
    forList pride (fun k heap =>
      if (heap k).female ∧ (heap k).group = 0 then do
        let l ← safer range wx (heap k)
        return Function.update heap k l
      else return heap) heap

/-- One step of a roaming male (loa.py:528-538). -/
def roam (range : Fl) (sx : Vec D) (l : Lion D) : Prog (Vec D) (Lion D) := do
  let d := norm2 (fun j => sx j - l.x j) / range
  let x ← Prog.unif 0 (Fl.ofNat 2 * d)
  let angle ← Prog.unif (-piF / Fl.ofNat 6) (piF / Fl.ofNat 6)
  let l ← l.goto fun j => l.cx j + x * d * Arith.fn .tan angle
  return l.record

/-- One nomad in `roaming` (loa.py:547-558). -/
def wander (B : Box D) (best : Fl) (l : Lion D) : Prog (Vec D) (Lion D) := do
  let r ← Prog.rand
  if r ≤ lit 1 10 + Fl.npMin (lit 1 2) ((l.cf - best) / best) then do
    let cx ← unifVec B.lo B.hi
    let cf ← Prog.eval cx
    return ({ l with cx := cx, cf := cf } : Lion D).record
  else return l.record

/-- `np.min` of a non-empty list. -/
def npMinList : List Fl → Fl
  | [] => 0
  | v :: vs => vs.foldl Fl.npMin v

/-- One male in `roaming` (loa.py:516-538). -/
def roamMale (range : Fl) (pride : List ℕ) (num : Fl) (k : ℕ) (heap : ℕ → Lion D) : Prog (Vec D) (ℕ → Lion D) :=
  if (heap k).female then return heap
  else do
    let n ← Prog.ofExcept (roundZ num)
    if n ≤ 0 then return heap
    else do
      let c ← choiceFin pride.length n.toNat
      let l ← forList ((List.ofFn fun i => pride.get (c i)).map fun i => (heap i).x) (fun sx l => roam range sx l) (heap k)
      return Function.update heap k l

/-- `roaming` (loa.py:494-560). -/
def roaming (B : Box D) (p : Par) (h : Herd D) : Prog (Vec D) (Herd D) := do
  let range ← Prog.ofExcept (searchRange B)
  let h ← forPrides p.prides h fun i pride heap =>
    forList pride (roamMale range pride (ofZ (h.size i) * p.roaming)) heap
  let nomads := sliceFrom h.pop (h.pop.length - h.size p.prides)
  let heap ← forList nomads (fun k heap => do
    let l ← wander B (npMinList (nomads.map fun i => (heap i).cf)) (heap k)
    return Function.update heap k l) h.heap
  return { h with heap := heap }

/-! ### Mating -/

/-- The number of males that take part (loa.py:568-571). -/
def matingMales (hasPride : Bool) (n : ℕ) : Prog (Vec D) ℕ :=
  if hasPride = false ∨ n = 1 then return 1
  else do
    let k ← Prog.int (n - 1)
    return k + 1

/-- Mutation of one coordinate (loa.py:582-585). -/
def mutate (lo hi m v : Fl) : Prog (Vec D) Fl := do
  let r ← Prog.rand
  if r < m then Prog.unif lo hi else return v

/-- A cub (loa.py:596-608). -/
def cub (x : Vec D) (pride : ℕ) (female : Bool) : Prog (Vec D) (Lion D) := do
  let y ← Prog.repair x false
  let f ← Prog.eval y
  return ⟨y, f, female, pride, 0, x, f, f + 1, true⟩

/-- `create_offspring` (loa.py:562-612). -/
def offspring (B : Box D) (p : Par) (heap : ℕ → Lion D) (female : ℕ) (males : List ℕ) (pride : ℕ) : Prog (Vec D) (List (Lion D)) :=
  if males.isEmpty then return []
  else do
    let n ← matingMales (decide (pride < p.prides)) males.length
    let c ← choiceFin males.length n
    let beta ← Prog.norm (lit 1 2) (lit 1 10)
    let mean : Vec D := fun j => (vsum fun i => (heap (males.get (c i))).x j) / Fl.ofNat n
    let o ← tabM D fun j => do
      let a ← mutate (B.lo j) (B.hi j) p.mutation (beta * (heap female).x j + (1 - beta) * mean j)
      let b ← mutate (B.lo j) (B.hi j) p.mutation ((1 - beta) * (heap female).x j + beta * mean j)
      return (a, b)
    let r ← Prog.rand
    let c1 ← cub (fun j => (o j).1) pride (decide (¬ r < lit 1 2))
    let c2 ← cub (fun j => (o j).2) pride (decide (r < lit 1 2))
    return [c1, c2]

/-- New objects: references to them. -/
def alloc (h : Herd D) (l : List (Lion D)) : Herd D × List ℕ :=
  ({ h with heap := fun k => if h.next ≤ k then l.getD (k - h.next) (h.heap k) else h.heap k, next := h.next + l.length },
    (List.range l.length).map (h.next + ·))

/-- The cubs of a pride or of the nomads (loa.py:642-650, 667-674). -/
def cubs (B : Box D) (p : Par) (h : Herd D) (lions : List ℕ) (pride : ℕ) : Prog (Vec D) (Herd D × List ℕ) :=
  forList (lions.filter fun k => (h.heap k).female) (fun k (a : Herd D × List ℕ) => do
    let r ← Prog.rand
    if r < p.mating then do
      let l ← offspring B p a.1.heap k (lions.filter fun k => !(a.1.heap k).female) pride
      let (h, new) := alloc a.1 l
      return (h, a.2 ++ new)
    else return a) (h, [])

/-- Count new lions (loa.py:652-659, 676-683). -/
def countIn (h : Herd D) (ex : Excess) (new : List ℕ) (pride : ℕ) : Herd D × Excess :=
  let f : ℤ := (new.filter fun k => (h.heap k).female).length
  let m : ℤ := new.length - f
  ({ h with size := h.size.add pride new.length, fem := h.fem.add pride f, mal := h.mal.add pride m },
    ⟨ex.fem.add pride f, ex.mal.add pride m⟩)

/-- The accumulators of the loop in `mating`. -/
structure Mating (D : ℕ) where
  herd : Herd D
  excess : Excess
  idx : ℤ
  new : List ℕ

/-- One pride in `mating` (loa.py:634-662). What is called `num_males` is the number of females; a pride without females is dropped. -/
def matePride (B : Box D) (p : Par) (i : ℕ) (a : Mating D) : Prog (Vec D) (Mating D) :=
  let size := a.herd.size i
  let pride := slice a.herd.pop a.idx (a.idx + size)
  if a.herd.fem i = 0 then return { a with idx := a.idx + size }
  else do
    let (h, new) ← cubs B p a.herd pride i
    let (h, ex) := countIn h a.excess new i
    return ⟨h, ex, a.idx + size, a.new ++ pride ++ new⟩

/-- `mating` (loa.py:614-688). -/
def mating (B : Box D) (p : Par) (h : Herd D) : Prog (Vec D) (Herd D × Excess) := do
  let a ← forList (List.range p.prides) (matePride B p) ⟨h, ⟨fun _ => 0, fun _ => 0⟩, 0, []⟩
  let nomads := sliceFrom a.herd.pop (-a.herd.size p.prides)
  let (h, new) ← cubs B p a.herd nomads p.prides
  let (h, ex) := countIn h a.excess new p.prides
  return ({ h with pop := a.new ++ nomads ++ new }, ex)

/-! ### Defense, migration and equilibrium -/

/-- `sorted(l, key=current_f)`, ascending or (`reverse=True`) descending. With NaN values, Python may give another order. -/
def sortLions (heap : ℕ → Lion D) (desc : Bool) (l : List ℕ) : Prog (Vec D) (List ℕ) :=
  sortRecs (fun k => if desc then -(heap k).cf else (heap k).cf) l

/-- The first loop of `defense` (loa.py:712-726): the lions that stay and those that leave. -/
def expel (P : ℕ) (h : Herd D) (ex : Excess) : Prog (Vec D) (List ℕ × List ℕ) := do
  let (stay, leave, _) ← forList (List.range P) (fun i (a : List ℕ × List ℕ × ℤ) => do
    let lions := slice h.pop a.2.2 (a.2.2 + h.size i)
    let males ← sortLions h.heap true (lions.filter fun k => !(h.heap k).female)
    return (a.1 ++ lions.filter (fun k => (h.heap k).female) ++ sliceFrom males (ex.mal i), a.2.1 ++ sliceTo males (ex.mal i), a.2.2 + h.size i)) ([], [], 0)
  return (stay, leave)

/-- A male becomes a nomad (loa.py:735-744). -/
def makeNomad (P : ℕ) (k : ℕ) (a : Herd D × Excess) : Herd D × Excess :=
  let (h, ex) := a
  let i := (h.heap k).pride
  ({ h with
      heap := Function.update h.heap k { h.heap k with pride := P }
      size := (h.size.add i (-1)).add P 1
      mal := (h.mal.add i (-1)).add P 1 },
    { ex with mal := (ex.mal.add i (-1)).add P 1 })

/-- The search of a nomad for a weaker male in one pride (loa.py:762-769), without effect apart from an `IndexError`. -/
def attack (heap : ℕ → Lion D) (pop : List ℕ) (nomad : ℕ) (start : ℤ) : List ℕ → Except PyErr Unit
  | [] => .ok ()
  | j :: js =>
    match pyGet pop (start + j) with
    | .error e => .error e
    | .ok k => if (heap k).female = false ∧ (heap nomad).cf < (heap k).cf then .ok () else attack heap pop nomad start js

/-- The second loop of `defense` (loa.py:751-771). -/
def attacks (P : ℕ) (h : Herd D) : Prog (Vec D) Unit :=
  forList (sliceFrom h.pop (-h.size P)) (fun nomad _ => do
    let r ← tabM P fun _ => Prog.rand
    let _ ← forFin P (fun i (index : ℤ) => do
      Prog.ofExcept (if r i < lit 1 2 then attack h.heap h.pop nomad index (List.range (h.size i).toNat) else .ok ())
      return index + h.size i) 0
    return ()) ()

/-- `defense` (loa.py:690-773). -/
def defense (P : ℕ) (h : Herd D) (ex : Excess) : Prog (Vec D) (Herd D × Excess) := do
  let (stay, leave) ← expel P h ex
  let moved := stay ++ sliceFrom h.pop (-h.size P) ++ leave
  let (h, ex) := leave.foldl (fun a k => makeNomad P k a) (h, ex)
  let h := { h with pop := moved }
  attacks P h
  return (h, ex)

/-- Which of `females` leave their pride (loa.py:787-790, 801-809). -/
def migrants (p : Par) (num excess : ℤ) (females : List ℕ) : Prog (Vec D) (List ℕ × List ℕ) := do
  let r ← Prog.ofExcept (roundZ (ofZ (num - excess) * p.immigration))
  if num < 0 then .throw .valueError
  else do
    let perm ← Prog.perm num.toNat
    let mask := perm.map fun i => decide (i < pyPos num.toNat (excess + r))
    if num.toNat < females.length then .throw .indexError
    else return (((females.zip mask).filter fun e => !e.2).map (·.1), ((females.zip mask).filter (·.2)).map (·.1))

/-- `_migrate_pride_females` (loa.py:775-813). -/
def migrateFemales (p : Par) (h : Herd D) (ex : Excess) : Prog (Vec D) (List ℕ × List ℕ) := do
  let (stay, leave, _) ← forList (List.range p.prides) (fun i (a : List ℕ × List ℕ × ℤ) => do
    let lions := slice h.pop a.2.2 (a.2.2 + h.size i)
    let (keep, go) ← migrants p (h.fem i) (ex.fem i) (lions.filter fun k => (h.heap k).female)
    return (a.1 ++ lions.filter (fun k => !(h.heap k).female) ++ keep, a.2.1 ++ go, a.2.2 + h.size i)) ([], [], 0)
  return (stay, leave)

/-- A copy of the female `k` moves to the pride `i` (loa.py:835-848, 907-920). -/
def moveFemale (i : ℕ) (k : ℕ) (a : Herd D × Excess) : Herd D × Excess :=
  let (h, ex) := a
  let j := (h.heap k).pride
  let (h, new) := alloc h [{ h.heap k with pride := i }]
  ({ h with
      pop := h.pop ++ new
      size := (h.size.add j (-1)).add i 1
      fem := (h.fem.add j (-1)).add i 1 },
    { ex with fem := (ex.fem.add j (-1)).add i 1 })

/-- `_assemble_final_population` (loa.py:880-928), without the nomads that stay. -/
def assemble (P : ℕ) (moved toMove : List ℕ) (a : Herd D × Excess) : Herd D × Excess :=
  ((List.range P).foldl (fun (a : (Herd D × Excess) × ℤ × ℤ) i =>
    let (h, ex) := a.1
    let size := h.size i
    let empty := |ex.fem i|
    ((slice toMove a.2.2 (a.2.2 + empty)).foldl (fun a k => moveFemale i k a)
      ({ h with pop := h.pop ++ slice moved a.2.1 (a.2.1 + size) }, ex), a.2.1 + size, a.2.2 + empty)) (a, 0, 0)).1

/-- `migration` (loa.py:930-974). -/
def migration (p : Par) (h : Herd D) (ex : Excess) : Prog (Vec D) (Herd D × Excess) := do
  let P := p.prides
  let n : ℤ := h.pop.length
  let (stay, leave) ← migrateFemales p h ex
  -- `_build_population_after_pride_migration` (loa.py:815-850)
  let (h, ex) := leave.foldl (fun a k => moveFemale P k a) ({ h with pop := stay ++ sliceFrom h.pop (n - h.size P) }, ex)
  -- `_select_nomad_females_for_prides` (loa.py:852-878)
  let empty := ((List.range P).map fun i => |ex.fem i|).sum
  let nomads := sliceFrom h.pop (n - h.size P)
  let females ← sortLions h.heap false (nomads.filter fun k => (h.heap k).female)
  let toMove := sliceTo females empty
  let perm ← Prog.perm toMove.length
  let (h', ex) := assemble P h.pop (perm.filterMap (toMove[·]?)) ({ h with pop := [] }, ex)
  return ({ h' with pop := h'.pop ++ sliceFrom females empty ++ nomads.filter fun k => !(h.heap k).female }, ex)

/-- `population_equilibrium` (loa.py:976-1015). -/
def equilibrium (P : ℕ) (h : Herd D) (ex : Excess) : Prog (Vec D) (Herd D) := do
  let n := h.size P
  let nomads := sliceFrom h.pop (-n)
  let males ← sortLions h.heap true (nomads.filter fun k => !(h.heap k).female)
  let females ← sortLions h.heap true (nomads.filter fun k => (h.heap k).female)
  return { h with
    pop := sliceTo h.pop (h.pop.length - n) ++ sliceFrom males (ex.mal P) ++ sliceFrom females (ex.fem P)
    size := h.size.add P (-(ex.fem P + ex.mal P))
    fem := h.fem.add P (-ex.fem P)
    mal := h.mal.add P (-ex.mal P) }

/-- `data_correction` (loa.py:1017-1034) for one lion; doing this twice makes a difference. -/
def correct (l : Lion D) : Lion D := if l.f < l.prev then { l with improved := true, prev := l.f } else { l with improved := false }

/-- `run_iteration` (loa.py:1036-1061). -/
def iter (B : Box D) (p : Par) (h : Herd D) (xb : Vec D) (fxb : Fl) : Prog (Vec D) (Herd D × Vec D × Fl) := do
  let h ← hunting p.prides h
  let h ← moveToSafePlace B p.prides h
  let h ← roaming B p h
  let (h, ex) ← mating B p h
  let (h, ex) ← defense p.prides h ex
  let (h, ex) ← migration p h ex
  let h ← equilibrium p.prides h ex
  let heap := h.pop.foldl (fun heap k => Function.update heap k (correct (heap k))) h.heap
  let b ← Prog.getBest (h.pop.map fun k => (heap k).x) (h.pop.map fun k => (heap k).f) xb fxb
  return ({ h with heap := heap }, b)

/-- The lion optimization algorithm. -/
def alg (opt : OptType) (B : Box D) (N : ℕ) (p : Par) : Alg (Vec D) where
  σ := Herd D
  init := init opt B N p
  pop h := h.pop.map fun k => (h.heap k).x
  fit h := h.pop.map fun k => (h.heap k).f
  iter := iter B p

/-! ### Obligations -/

variable {B : Box D} {C : Ctx (Vec D)} {g : Ghost (Vec D)} {p : Par} {α β : Type}

/-- The program may be run in the context, and its results satisfy `P`. -/
structure Gives (C : Ctx (Vec D)) (q : Prog (Vec D) α) (P : α → Prop) : Prop where
  wp : ∀ g, q.wp C (fun a _ => P a) g

omit [Arith] in
theorem Gives.of {q : Prog (Vec D) α} {P : α → Prop} (h : Yields C q P) : Gives C q P := ⟨fun _ => h.wp fun _ h => h⟩

omit [Arith] in
theorem Gives.bind {q : Prog (Vec D) α} {f : α → Prog (Vec D) β} {P : α → Prop} {R : β → Prop} (hq : Gives C q P)
    (hf : ∀ a, P a → Gives C (f a) R) : Gives C (q >>= f) R := ⟨fun g => by
  rw [Prog.wp_bind']
  exact Prog.wp_mono (fun a g' ha => (hf a ha).wp g') (hq.wp g)⟩

omit [Arith] in
theorem Gives.pure {a : α} {P : α → Prop} (h : P a) : Gives C (Pure.pure a) P := ⟨fun _ => h⟩

omit [Arith] in
theorem Gives.ite {c : Prop} [Decidable c] {q r : Prog (Vec D) α} {P : α → Prop} (hq : c → Gives C q P) (hr : ¬ c → Gives C r P) :
    Gives C (if c then q else r) P := by
  split
  · exact hq ‹_›
  · exact hr ‹_›

omit [Arith] in
theorem Gives.forList {σ γ : Type} {l : List γ} {f : γ → σ → Prog (Vec D) σ} {s : σ} (J : σ → Prop) (h0 : J s)
    (h : ∀ b ∈ l, ∀ s, J s → Gives C (f b s) J) : Gives C (NiaPy.forList l f s) J :=
  ⟨fun _ => wp_forList (fun s _ => J s) h0 fun b hb s g' hs => (h b hb s hs).wp g'⟩

omit [Arith] in
theorem Gives.mono {q : Prog (Vec D) α} {P R : α → Prop} (h : Gives C q P) (hP : ∀ a, P a → R a) : Gives C q R :=
  ⟨fun g => Prog.wp_mono (fun a _ => hP a) (h.wp g)⟩

/-- A lion at rest: its fitness is that of its position, and its current fitness is not better. -/
def Lion.Rest (C : Ctx (Vec D)) (l : Lion D) : Prop := C.F l.x l.f ∧ ¬ l.cf < l.f

/-- A lion that may be on the move: its current position belongs to the current fitness, if that is better. -/
def Lion.Sane (C : Ctx (Vec D)) (l : Lion D) : Prop := C.F l.x l.f ∧ (l.cf < l.f → C.F l.cx l.cf)

omit [Arith] in
theorem Lion.Rest.sane {l : Lion D} (h : l.Rest C) : l.Sane C := ⟨h.1, fun hlt => (h.2 hlt).elim⟩

omit [Arith] in
theorem Lion.Sane.record {l : Lion D} (h : l.Sane C) : l.record.Rest C := by
  unfold Lion.record
  split
  · rename_i hlt
    exact ⟨h.2 hlt, Fl.lt_irrefl _⟩
  · exact ⟨h.1, ‹_›⟩

omit [Arith] in
theorem goto_gives (he : C.ent) {l : Lion D} (h : C.F l.x l.f) (y : Vec D) : Gives C (l.goto y) fun l => l.Sane C := by
  unfold Lion.goto
  refine .bind (.of (Yields.repairE he)) fun cx hx => .bind (P := fun v => C.F cx v) ⟨fun g => ?_⟩ fun v hv => .pure ⟨h, fun _ => hv⟩
  rw [Prog.wp_eval]
  exact ⟨hx, fun v hv => hv⟩

omit [Arith] in
/-- All lions are at rest. -/
def Calm (C : Ctx (Vec D)) (heap : ℕ → Lion D) : Prop := ∀ k, (heap k).Rest C

omit [Arith] in
theorem Calm.update {heap : ℕ → Lion D} (h : Calm C heap) {l : Lion D} (hl : l.Rest C) (k : ℕ) : Calm C (Function.update heap k l) := fun i => by
  by_cases hi : i = k
  · subst hi; simpa using hl
  · rw [Function.update_of_ne hi]; exact h i

theorem oppose_quiet (a b : Fl) : Quiet C (oppose a b : Prog (Vec D) Fl) := by unfold oppose; dsimp only; yields
omit [Arith] in
theorem centre_quiet (a b : Fl) : Quiet C (centre a b : Prog (Vec D) Fl) := by unfold centre; yields

theorem moveHunter_gives (he : C.ent) {l : Lion D} (h : l.Rest C) (prey : Vec D) (r le c : ℕ) : Gives C (moveHunter l prey r le c) fun l => l.Sane C := by
  unfold moveHunter
  refine .ite (fun _ => .bind (.of (Yields.tabMT fun i => oppose_quiet _ _)) fun y _ => goto_gives he h.1 y) fun _ => .ite
    (fun _ => .bind (.of (Yields.tabMT fun i => centre_quiet _ _)) fun y _ => goto_gives he h.1 y) fun _ => .pure h.sane

theorem updatePrey_quiet (he : C.ent) (l : Lion D) (prey : Vec D) : Quiet C (updatePrey l prey) := by
  unfold updatePrey
  exact .ite (fun _ => .bindT Yields.rand.quiet fun r => (Yields.repairE he).quiet) fun _ => .pure' trivial

theorem gather_yields (pride : List ℕ) {heap : ℕ → Lion D} (h : Calm C heap) : Yields C (gather pride heap) fun a => Calm C a.1 := by
  unfold gather
  refine Yields.forList (fun a : (ℕ → Lion D) × (ℕ → Fl) × Vec D × List ℕ => Calm C a.1) h fun k _ a ha => ?_
  obtain ⟨heap, fit, prey, hunters⟩ := a
  dsimp only
  refine .bind' (P := fun r => r.1.Rest C) (.ite (fun _ => .bind' (Yields.int.quiet) fun g _ => .pure' (ha k)) fun _ => .pure' (ha k)) fun r hr => .pure' ?_
  obtain ⟨l, fit⟩ := r
  dsimp only
  split
  · exact ha.update hr k
  · exact ha.update hr k

theorem hunt_gives (he : C.ent) (pride : List ℕ) {heap : ℕ → Lion D} (h : Calm C heap) : Gives C (hunt pride heap) (Calm C) := by
  unfold hunt
  refine .bind (.of (gather_yields pride h)) fun a ha => .bind (.of (Yields.repairE he)) fun prey _ => .bind (.of Yields.argsort) fun o _ =>
    .bind (P := fun a => Calm C a.1) (.forList _ ha fun k _ a ha => ?_) fun a ha => .pure ha
  refine .bind (moveHunter_gives he (ha k) _ _ _ _) fun l hl => .bind (.of (updatePrey_quiet he l _)) fun _ _ => .pure (ha.update hl.record k)

theorem forPrides_gives {P : ℕ} {h : Herd D} {f : ℕ → List ℕ → (ℕ → Lion D) → Prog (Vec D) (ℕ → Lion D)} (hh : Calm C h.heap)
    (hf : ∀ i l heap, Calm C heap → Gives C (f i l heap) (Calm C)) : Gives C (forPrides P h f) fun h => Calm C h.heap := by
  unfold forPrides
  exact .bind (P := fun a => Calm C a.1) (.forList _ hh fun i _ a ha => .bind (hf _ _ _ ha) fun heap hheap => .pure hheap) fun a ha => .pure ha

theorem winner_quiet (heap : ℕ → Lion D) (pride : List ℕ) : Quiet C (winner heap pride : Prog (Vec D) ℕ) := by
  unfold winner
  split
  · exact .throw nofun
  · exact .pure' trivial
  · exact .bindT Yields.choiceFin.quiet fun c => .pure' trivial

theorem ortho_quiet (r : Vec D) : Quiet C (ortho r) := by unfold ortho; yields

theorem safer_gives (he : C.ent) (range : Fl) (wx : Vec D) {l : Lion D} (h : l.Rest C) : Gives C (safer range wx l) fun l => l.Rest C := by
  unfold safer
  exact .bind (.of (ortho_quiet _)) fun r2 _ => .bind (.of Yields.rand) fun _ _ => .bind (.of Yields.unif) fun _ _ => .bind (.of Yields.unif) fun _ _ =>
    .bind (goto_gives he h.1 _) fun l hl => .pure hl.record

theorem searchRange_quiet : Quiet C (Prog.ofExcept (searchRange B) : Prog (Vec D) Fl) := ⟨fun g => by
  rw [Prog.wp_ofExcept]
  refine ⟨fun _ _ => ⟨trivial, rfl⟩, fun h => ?_⟩
  unfold searchRange at h
  split at h <;> cases h⟩

theorem safe_gives (he : C.ent) (P : ℕ) {h : Herd D} (hh : Calm C h.heap) : Gives C (moveToSafePlace B P h) fun h => Calm C h.heap := by
  unfold moveToSafePlace
  refine .bind (.of searchRange_quiet) fun range _ => forPrides_gives hh fun i l heap hheap => .bind (.of (winner_quiet _ _)) fun w _ => .forList _ hheap fun k _ heap hheap => ?_
  exact .ite (fun _ => .bind (safer_gives he _ _ (hheap k)) fun l hl => .pure (hheap.update hl k)) fun _ => .pure hheap

theorem roam_gives (he : C.ent) (range : Fl) (sx : Vec D) {l : Lion D} (h : l.Rest C) : Gives C (roam range sx l) fun l => l.Rest C := by
  unfold roam
  exact .bind (.of Yields.unif) fun _ _ => .bind (.of Yields.unif) fun _ _ => .bind (goto_gives he h.1 _) fun l hl => .pure hl.record

theorem wander_gives (hG : ∀ x, B.Mem x → C.G x) (best : Fl) {l : Lion D} (h : l.Rest C) : Gives C (wander B best l) fun l => l.Rest C := by
  unfold wander
  refine .bind (.of Yields.rand) fun r _ => .ite (fun _ => .bind (.of Yields.unifVec) fun cx hx => .bind (P := fun v => C.F cx v) ⟨fun g => ?_⟩ fun v hv =>
    .pure (Lion.Sane.record ⟨h.1, fun _ => hv⟩)) fun _ => .pure h.sane.record
  rw [Prog.wp_eval]
  exact ⟨hG _ fun j => hx j (B.le j), fun v hv => hv⟩

theorem roundZ_quiet (v : Fl) : Quiet C (Prog.ofExcept (roundZ v) : Prog (Vec D) ℤ) := ⟨fun g => by
  rw [Prog.wp_ofExcept]
  refine ⟨fun _ _ => ⟨trivial, rfl⟩, fun h => ?_⟩
  unfold roundZ DE.pyRound at h
  split at h
  · cases h
  · rename_i h'; split at h' <;> cases h <;> cases h'⟩

theorem roamMale_gives (he : C.ent) (range : Fl) (pride : List ℕ) (num : Fl) (k : ℕ) {heap : ℕ → Lion D} (h : Calm C heap) :
    Gives C (roamMale range pride num k heap) (Calm C) := by
  unfold roamMale
  refine .ite (fun _ => .pure h) fun _ => .bind (.of (roundZ_quiet _)) fun n _ => .ite (fun _ => .pure h) fun _ => .bind (.of Yields.choiceFin) fun c _ =>
    .bind (P := fun l => l.Rest C) (.forList (fun l : Lion D => l.Rest C) (h k) fun sx _ l hl => roam_gives he _ _ hl) fun l hl => .pure (h.update hl k)

theorem roaming_gives (he : C.ent) (hG : ∀ x, B.Mem x → C.G x) {h : Herd D} (hh : Calm C h.heap) : Gives C (roaming B p h) fun h => Calm C h.heap := by
  unfold roaming
  refine .bind (.of searchRange_quiet) fun range _ => .bind (forPrides_gives hh fun i l heap hheap => .forList _ hheap fun k _ heap hheap => roamMale_gives he _ _ _ _ hheap)
    fun h hh => .bind (P := Calm C) (.forList _ hh fun k _ heap hheap => .bind (wander_gives hG _ (hheap k)) fun l hl => .pure (hheap.update hl k)) fun _ h => .pure h

omit [Arith] in
theorem matingMales_quiet (b : Bool) (n : ℕ) : Quiet C (matingMales b n : Prog (Vec D) ℕ) := by
  unfold matingMales
  exact .ite (fun _ => .pure' trivial) fun _ => .bindT Yields.int.quiet fun _ => .pure' trivial

omit [Arith] in
theorem mutate_quiet (a b c d : Fl) : Quiet C (mutate a b c d : Prog (Vec D) Fl) := by unfold mutate; yields

theorem cub_gives (he : C.ent) (x : Vec D) (i : ℕ) (b : Bool) : Gives C (cub x i b) fun l => l.Rest C := by
  unfold cub
  refine .bind (.of (Yields.repairE he)) fun y hy => .bind (P := fun v => C.F y v) ⟨fun g => ?_⟩ fun v hv => .pure ⟨hv, Fl.lt_irrefl _⟩
  rw [Prog.wp_eval]
  exact ⟨hy, fun v hv => hv⟩

theorem offspring_gives (he : C.ent) (heap : ℕ → Lion D) (k : ℕ) (males : List ℕ) (i : ℕ) :
    Gives C (offspring B p heap k males i) fun r => ∀ l ∈ r, l.Rest C := by
  unfold offspring
  refine .ite (fun _ => .pure (by simp)) fun _ => .bind (.of (matingMales_quiet _ _)) fun n _ => .bind (.of Yields.choiceFin) fun c _ => .bind (.of Yields.norm) fun b _ =>
    .bind (.of (Yields.tabMT fun j => .bindT (mutate_quiet _ _ _ _) fun _ => .bindT (mutate_quiet _ _ _ _) fun _ => .pure' trivial)) fun o _ =>
    .bind (.of Yields.rand) fun r _ => .bind (cub_gives he _ _ _) fun c1 h1 => .bind (cub_gives he _ _ _) fun c2 h2 => .pure ?_
  intro l hl
  rcases List.mem_cons.1 hl with rfl | hl
  · exact h1
  · rcases List.mem_singleton.1 hl with rfl
    exact h2

omit [Arith] in
theorem Calm.alloc {h : Herd D} (hh : Calm C h.heap) {l : List (Lion D)} (hl : ∀ e ∈ l, e.Rest C) : Calm C (alloc h l).1.heap := fun k => by
  unfold LOA.alloc
  dsimp only
  split
  · rw [List.getD_eq_getElem?_getD]
    cases hk : l[k - h.next]? with
    | none => exact hh k
    | some e => exact hl e (List.mem_of_getElem? hk)
  · exact hh k

theorem cubs_gives (he : C.ent) {h : Herd D} (hh : Calm C h.heap) (lions : List ℕ) (i : ℕ) : Gives C (cubs B p h lions i) fun a => Calm C a.1.heap := by
  unfold cubs
  refine .forList (fun a : Herd D × List ℕ => Calm C a.1.heap) hh fun k _ a ha => .bind (.of Yields.rand) fun r _ => .ite
    (fun _ => .bind (offspring_gives he _ _ _ _) fun l hl => .pure (ha.alloc hl)) fun _ => .pure ha

theorem matePride_gives (he : C.ent) (i : ℕ) {a : Mating D} (ha : Calm C a.herd.heap) : Gives C (matePride B p i a) fun a => Calm C a.herd.heap := by
  unfold matePride
  dsimp only
  exact .ite (fun _ => .pure ha) fun _ => .bind (cubs_gives he ha _ _) fun r hr => .pure hr

theorem mating_gives (he : C.ent) {h : Herd D} (hh : Calm C h.heap) : Gives C (mating B p h) fun a => Calm C a.1.heap := by
  unfold mating
  exact .bind (.forList (fun a : Mating D => Calm C a.herd.heap) hh fun i _ a ha => matePride_gives he i ha) fun a ha =>
    .bind (cubs_gives he ha _ _) fun r hr => .pure hr

theorem sortLions_quiet (heap : ℕ → Lion D) (b : Bool) (l : List ℕ) : Quiet C (sortLions heap b l : Prog (Vec D) (List ℕ)) := Yields.sortRecs.quiet

theorem expel_quiet (P : ℕ) (h : Herd D) (ex : Excess) : Quiet C (expel P h ex) := by
  unfold expel
  exact .bindT (Yields.forList (fun _ => True) trivial fun i _ a _ => .bindT (sortLions_quiet _ _ _) fun _ => .pure' trivial) fun _ => .pure' trivial

omit [Arith] in
theorem attack_ne (heap : ℕ → Lion D) (pop : List ℕ) (k : ℕ) (i : ℤ) (l : List ℕ) : attack heap pop k i l ≠ .error .outOfFuel := by
  induction l with
  | nil => nofun
  | cons j l ih =>
    unfold attack
    split
    · rename_i e he
      unfold pyGet at he
      intro h
      cases h
      split at he
      · cases he
      · split at he <;> cases he
    · split
      · nofun
      · exact ih

theorem attacks_quiet (P : ℕ) (h : Herd D) : Quiet C (attacks P h) := by
  unfold attacks
  refine Yields.forList (fun _ => True) trivial fun k _ _ _ => .bindT (Yields.tabMT fun _ => Yields.rand.quiet) fun r => .bindT
    (Yields.forFin (fun _ => True) trivial fun i a _ => .bindT ⟨fun g => ?_⟩ fun _ => .pure' trivial) fun _ => .pure' trivial
  rw [Prog.wp_ofExcept]
  refine ⟨fun _ _ => ⟨trivial, rfl⟩, fun h' => ?_⟩
  split at h'
  · exact (attack_ne _ _ _ _ _ h').elim
  · cases h'

omit [Arith] in
theorem makeNomads_calm (P : ℕ) (l : List ℕ) {a : Herd D × Excess} (ha : Calm C a.1.heap) : Calm C (l.foldl (fun a k => makeNomad P k a) a).1.heap := by
  induction l generalizing a with
  | nil => exact ha
  | cons k l ih => exact ih (ha.update (l := { a.1.heap k with pride := P }) (ha k) k)

theorem defense_gives (P : ℕ) {h : Herd D} (hh : Calm C h.heap) (ex : Excess) : Gives C (defense P h ex) fun a => Calm C a.1.heap := by
  unfold defense
  exact .bind (.of (expel_quiet _ _ _)) fun a _ => .bind (.of (attacks_quiet _ _)) fun _ _ => .pure (makeNomads_calm (a := (h, ex)) _ _ hh)

theorem migrants_quiet (a b : ℤ) (l : List ℕ) : Quiet C (migrants p a b l : Prog (Vec D) (List ℕ × List ℕ)) := by
  unfold migrants
  exact .bindT (roundZ_quiet _) fun r => .ite (fun _ => .throw nofun) fun _ => .bindT Yields.perm.quiet fun _ => .ite (fun _ => .throw nofun) fun _ => .pure' trivial

theorem migrateFemales_quiet (h : Herd D) (ex : Excess) : Quiet C (migrateFemales p h ex) := by
  unfold migrateFemales
  exact .bindT (Yields.forList (fun _ => True) trivial fun i _ a _ => .bindT (migrants_quiet _ _ _) fun _ => .pure' trivial) fun _ => .pure' trivial

omit [Arith] in
theorem moveFemales_calm (i : ℕ) (l : List ℕ) {a : Herd D × Excess} (ha : Calm C a.1.heap) : Calm C (l.foldl (fun a k => moveFemale i k a) a).1.heap := by
  induction l generalizing a with
  | nil => exact ha
  | cons k l ih =>
    refine ih ?_
    refine ha.alloc (l := [{ a.1.heap k with pride := i }]) fun e he => ?_
    rcases List.mem_singleton.1 he with rfl
    exact ha k

omit [Arith] in
theorem assemble_calm (P : ℕ) (moved toMove : List ℕ) {a : Herd D × Excess} (ha : Calm C a.1.heap) : Calm C (assemble P moved toMove a).1.heap := by
  unfold assemble
  generalize List.range P = l
  generalize ((0 : ℤ), (0 : ℤ)) = z
  induction l generalizing a z with
  | nil => exact ha
  | cons i l ih =>
    rw [List.foldl_cons, ← Prod.mk.eta (p := z)]
    exact ih (moveFemales_calm (a := ({ a.1 with pop := a.1.pop ++ slice moved z.1 (z.1 + a.1.size i) }, a.2)) _ _ ha) _

theorem migration_gives {h : Herd D} (hh : Calm C h.heap) (ex : Excess) : Gives C (migration p h ex) fun a => Calm C a.1.heap := by
  unfold migration
  dsimp only
  refine .bind (.of (migrateFemales_quiet _ _)) fun a _ => .bind (.of (sortLions_quiet _ _ _)) fun f _ => .bind (.of Yields.perm) fun _ _ => .pure ?_
  exact assemble_calm _ _ _ (moveFemales_calm _ _ hh)

theorem equilibrium_gives (P : ℕ) {h : Herd D} (hh : Calm C h.heap) (ex : Excess) : Gives C (equilibrium P h ex) fun h => Calm C h.heap := by
  unfold equilibrium
  exact .bind (.of (sortLions_quiet _ _ _)) fun _ _ => .bind (.of (sortLions_quiet _ _ _)) fun _ _ => .pure hh

omit [Arith] in
theorem correct_calm (l : List ℕ) {heap : ℕ → Lion D} (h : Calm C heap) : Calm C (l.foldl (fun heap k => Function.update heap k (correct (heap k))) heap) := by
  induction l generalizing heap with
  | nil => exact h
  | cons k l ih =>
    refine ih (h.update ?_ k)
    unfold correct
    split
    · exact h k
    · exact h k

omit [Arith] in
/-- Counting only goes up. -/
theorem wp_count {q : Prog (Vec D) α} {Q : α → Ghost (Vec D) → Prop} (h : q.wp C Q g) : q.wp C (fun a g' => Q a g' ∧ g.c ≤ g'.c) g := by
  induction q generalizing g with
  | pure a => exact ⟨h, le_rfl⟩
  | throw e => exact h
  | op o k ih =>
    cases o with
    | eval x =>
      refine ⟨h.1, fun v hv => ?_, fun e he => Prog.wp_mono (fun a g' hg => ⟨hg.1, by have := hg.2; simp only at this; omega⟩) (ih _ (g := ⟨g.b, g.c + 1, g.ev⟩) (h.2.2 e he))⟩
      exact Prog.wp_mono (fun a g' hg => ⟨hg.1, by have := hg.2; simp only [Ghost.eval] at this; omega⟩) (ih _ (h.2.1 v hv))
    | nextIter => exact ⟨h.1, ih _ h.2⟩
    | look => exact fun v => ih _ (h v)
    | repair s x => exact ⟨h.1, fun y hy hr => ih _ (h.2 y hy hr)⟩
    | rand => exact fun r h0 h1 => ih _ (h r h0 h1)
    | unif lo hi => exact ⟨fun e he => ih _ (h.1 e he), fun r hr => ih _ (h.2 r hr)⟩
    | dist d a b => exact ⟨fun e he => ih _ (h.1 e he), fun r => ih _ (h.2 r)⟩
    | int n => exact ⟨fun h0 => ih _ (h.1 h0), fun k hk => ih _ (h.2 k hk)⟩
    | perm n => exact fun l hl => ih _ (h l hl)
    | argsort fs => exact fun l hl hs => ih _ (h l hl hs)
    | fire i e => exact ⟨h.1, ih _ (g := g.fire i e) h.2.1, fun e' he => ih _ (g := g.fire i e) (h.2.2 e' he)⟩

theorem iter_gives (hN : NoTracking C) (he : C.ent) (hG : ∀ x, B.Mem x → C.G x) {h : Herd D} (hh : Calm C h.heap) {xb : Vec D} {fxb : Fl} (hb : C.F xb fxb) :
    Gives C (iter B p h xb fxb) fun r => Calm C r.1.heap ∧ C.F r.2.1 r.2.2 := by
  unfold iter
  refine .bind (forPrides_gives hh fun _ _ _ h => hunt_gives he _ h) fun h hh => .bind (safe_gives he _ hh) fun h hh => .bind (roaming_gives he hG hh) fun h hh =>
    .bind (mating_gives he hh) fun a ha => .bind (defense_gives _ ha _) fun a ha => .bind (migration_gives ha _) fun a ha => .bind (equilibrium_gives _ ha _) fun h hh => ?_
  have hc := correct_calm h.pop hh
  refine .bind (P := fun b => C.F b.1 b.2) ⟨fun g => ?_⟩ fun b hb => .pure ⟨hc, hb⟩
  exact wp_getBest_recs (fun k _ => hN.fit (hc k).1) (hN.fit hb) hN.cov fun r hr => hr.fit

theorem roundZ_ne (v : Fl) : roundZ v ≠ .error .outOfFuel := fun h => by
  unfold roundZ DE.pyRound at h
  split at h
  · cases h
  · rename_i h'; split at h' <;> cases h <;> cases h'

omit [Arith] in
theorem mapM_ne {α β : Type} {f : α → Except PyErr β} (hf : ∀ a, f a ≠ .error .outOfFuel) (l : List α) : l.mapM f ≠ .error .outOfFuel := by
  induction l with
  | nil => rw [List.mapM_nil]; nofun
  | cons a l ih =>
    rw [List.mapM_cons]
    intro h
    cases ha : f a with
    | error e => rw [ha] at h; cases h; exact hf a ha
    | ok b =>
      cases hl : l.mapM f with
      | error e => rw [ha, hl] at h; cases h; exact ih hl
      | ok bs => rw [ha, hl] at h; cases h

theorem sizes_ne (N : ℕ) (p : Par) : sizes N p ≠ .error .outOfFuel := fun h => by
  unfold sizes at h
  cases hr : roundZ (p.nomadRatio * Fl.ofNat N) with
  | error e => rw [hr] at h; cases h; exact roundZ_ne _ hr
  | ok n =>
    rw [hr] at h
    change (if p.prides = 0 then _ else _) = _ at h
    split at h
    · cases h
    · dsimp only at h
      generalize hm : List.mapM (m := Except PyErr) _ _ = m at h
      cases m with
      | error e => cases h; exact mapM_ne (fun a => roundZ_ne _) _ hm
      | ok l => cases h

theorem sizes_quiet (N : ℕ) (p : Par) : Quiet C (Prog.ofExcept (sizes N p) : Prog (Vec D) (Tally × Tally)) := ⟨fun g => by
  rw [Prog.wp_ofExcept]
  exact ⟨fun _ _ => ⟨trivial, rfl⟩, fun h => (sizes_ne N p h).elim⟩⟩

/-- The obligations of the lion optimization algorithm. -/
theorem verified (opt : OptType) (B : Box D) (N : ℕ) (p : Par) : VerifiedIf NoTracking (alg opt B N p) B.Mem false true ⟨N, 0, none⟩ := by
  refine ⟨fun C (h : Herd D) _ => Calm C h.heap, fun C hN hG he _ => AlgOK.toW ⟨fun s b h => ?_, fun g hg => ?_, fun s xb fxb g hI hF hc => ?_⟩⟩
  · exact forall₂_map fun k _ => hN.fit (h k).1
  · simp only [alg, init, Prog.wp_bind']
    refine wp_initInd hg fun r g' h1 h2 h3 h4 => (sizes_quiet N p).wp fun z _ => ?_
    split
    · refine ⟨fun k => ?_, hN.cov, ?_⟩
      · dsimp only
        split <;> exact ⟨(h2 _).1, Fl.lt_irrefl _⟩
      · exact h4
    · exact nofun
  · exact Prog.wp_mono (fun r g' h => ⟨h.1.1, h.1.2, hN.eq, by simpa using h.2, nofun⟩) (wp_count ((iter_gives hN (he rfl) hG hI hF).wp g))

omit [Arith] in
theorem getBest_old {X : Type} {pop : List X} {fit : List Fl} {xb : X} {fxb : Fl} {r : X × Fl} (hr : getBest pop fit (some xb) fxb = .ok r) : r.2 = fxb ∨ r.2 ≤ fxb := by
  unfold NiaPy.getBest at hr
  split at hr
  · cases hr
  · split at hr
    · cases hr
    · split at hr
      · rename_i hle
        split at hr
        · cases hr
        · cases hr; exact Or.inr hle
      · cases hr; exact Or.inl rfl

/-- The incumbent dominates the population shown (C58). -/
theorem dominates (opt : OptType) (B : Box D) (N : ℕ) (p : Par) : Dominates (alg opt B N p) := by
  intro env s xb fxb
  unfold alg iter
  refine .bind' .any fun h _ => .bind' .any fun h _ => .bind' .any fun h _ => .bind' .any fun a _ => .bind' .any fun a _ => .bind' .any fun a _ => .bind' .any fun h _ =>
    .bind' (.ofExcept fun r hr => ?_) fun b hb => .pure' hb
  refine ⟨getBest_old hr, fun hx hn => (getBest_le hn hx hr).1⟩

/-! ### Examples -/

namespace Ex

/-- Exact arithmetic in which `round` rounds. -/
abbrev arith : Arith := exactArith fun f x => match f, x with
  | .round, .fin q => .fin ⌊q + 1 / 2⌋
  | _, x => x

/-- One pride; a quarter of the lions are nomads, four fifths of the pride are females, all of which mate and none of which migrates. -/
def par : Par := ⟨.fin (1 / 4), 1, .fin (4 / 5), .fin 0, .fin 1, .fin (1 / 5), .fin 0⟩

/-- The same with a tenth of females. -/
def few : Par := { par with femaleRatio := .fin (1 / 10) }

end Ex

omit [Arith] in
/-- The hypotheses of the theorems about traces hold of a concrete run. -/
example : letI := Ex.arith
    ∃ hist w, (alg .minimization (NiaPy.Ex.box 1) 5 Ex.par).Trace (NiaPy.Ex.env2 1) 0 hist w ∧ hist.length = 2 :=
  letI := Ex.arith
  (verified .minimization (NiaPy.Ex.box 1) 5 Ex.par).exists_trace (NiaPy.Ex.env2 1) (metBy_noTracking _ (fun _ => True) True) (fuel := 5) (by decide +kernel)

omit [Arith] in
/-- C58 is false of the lion optimization algorithm: here the best lion is a daughter that leaves its pride, since there is one female too
many, and then is removed, since no nomads are females. -/
theorem C58_loa_false : ∃ env : Env (Vec 1), NoNaN env ∧ (@alg Ex.arith 1 .minimization (NiaPy.Ex.box 1) 5 Ex.par).LosesBest env :=
  ⟨NiaPy.Ex.env2 1, NiaPy.Ex.env2_noNaN _ _, .of (fuel := 5) (f := .fin (1 / 16)) (b := .fin (1 / 64)) (by decide +kernel) (by decide +kernel)⟩

omit [Arith] in
/-- C71 is false of the lion optimization algorithm: a pride without females is dropped, but still counted, and an attack on it raises an
`IndexError`. -/
theorem C71_loa_false : letI := Ex.arith
    ((alg .minimization (NiaPy.Ex.box 1) 4 Ex.few).exec (NiaPy.Ex.env2 1) true 0 5).1 = .error .indexError := by
  have h : letI := Ex.arith
      (match ((alg .minimization (NiaPy.Ex.box 1) 4 Ex.few).exec (NiaPy.Ex.env2 1) true 0 5).1 with | .error .indexError => true | _ => false) = true := by
    decide +kernel
  split at h
  · assumption
  · cases h

end NiaPy.LOA
