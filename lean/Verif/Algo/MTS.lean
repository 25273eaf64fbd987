import Verif.Post
import Verif.Runs
import Verif.PopTools
import Verif.Loose
import Verif.RepairProps

/-!
# Multiple trajectory search (`niapy/algorithms/other/mts.py`) and its local searches
-/

namespace NiaPy.MTS
open NiaPy
variable [Arith] {D N : ℕ}

/-- What a local search works on (the arguments and results of the functions mts.py:17-312). All repair functions of the library
work in place and return their argument, so `current_x` stays the same array; `same` says that `best_x` is that very array
(only in the call mts.py:568), and then `xb` is not used. -/
structure LS (D : ℕ) where
  x : Vec D
  fx : Fl
  xb : Vec D
  fxb : Fl
  same : Bool
  imp : Bool
  sr : Vec D
  grade : Fl

/-- The array `best_x`. -/
def LS.best (s : LS D) : Vec D := if s.same then s.x else s.xb

/-- `if not improve: ...` and `improve, grade = False, 0.0` (mts.py:44-49, 109-113, 185-189). -/
def LS.start (B : Box D) (s : LS D) : LS D :=
  { s with
    sr := if s.imp then s.sr else fun j =>
      let v := s.sr j / Fl.ofNat 2
      if v < lit 1 1000000000000000 then (B.hi j - B.lo j) * lit 4 10 else v
    imp := false
    grade := Fl.ofNat 0 }

/-- `if f < best_fitness: grade, best_x, best_fitness = grade + bonus1, y.copy(), f` -/
def LS.record (s : LS D) (y : Vec D) (f b1 : Fl) : LS D :=
  if f < s.fxb then { s with xb := y, fxb := f, same := false, grade := s.grade + b1 } else s

/-- `current_x` (now the array `y`) is kept with the fitness `f`: `grade, improve, current_fitness = grade + bonus2, True, f`. -/
def LS.accept (s : LS D) (y : Vec D) (f b2 : Fl) : LS D := { s with x := y, fx := f, imp := true, grade := s.grade + b2 }

/-- The second trial of `mts_ls1` for coordinate `i` (mts.py:62-74); `y` is the first trial. -/
def ls1Second (b1 b2 : Fl) (i : Fin D) (o : Fl) (y : Vec D) (s : LS D) : Prog (Vec D) (LS D) := do
  let y ← Prog.repair (Function.update y i (o + lit 1 2 * s.sr i))
  let f ← Prog.eval y
  let s := s.record y f b1
  if s.fx ≤ f then return { s with x := Function.update y i o }
  else return s.accept y f b2

/-- Body of the loop of `mts_ls1` (mts.py:51-78). -/
def ls1Step (b1 b2 : Fl) (i : Fin D) (s : LS D) : Prog (Vec D) (LS D) := do
  let y ← Prog.repair (Function.update s.x i (s.x i - s.sr i))
  let f ← Prog.eval y
  let t := s.record y f b1
  if Fl.eqB f s.fx = true then return { t with x := Function.update y i (s.x i) }
  else if s.fx < f then ls1Second b1 b2 i (s.x i) y t
  else return t.accept y f b2

/-- `mts_ls1` (mts.py:17-79). -/
def ls1 (B : Box D) (b1 b2 : Fl) (s : LS D) : Prog (Vec D) (LS D) := forFin D (ls1Step b1 b2) (s.start B)

/-- The second trial of `mts_ls1v1` (mts.py:124-132). A new best solution is copied to `best_x`, but `current_x` keeps it too, with
the old `current_fitness`. -/
def ls1v1Second (b1 b2 : Fl) (i : Fin D) (o : Fl) (y : Vec D) (s : LS D) : Prog (Vec D) (LS D) := do
  let y ← Prog.repair (Function.update y i (o + lit 1 2 * s.sr i))
  let f ← Prog.eval y
  if f < s.fxb then return { s.record y f b1 with x := y }
  else if s.fx ≤ f then return { s with x := Function.update y i o }
  else return s.accept y f b2

/-- Body of the loop of `mts_ls1v1` (mts.py:115-134). -/
def ls1v1Step (b1 b2 : Fl) (d : Vec D) (i : Fin D) (s : LS D) : Prog (Vec D) (LS D) := do
  let y ← Prog.repair (Function.update s.x i (s.x i - s.sr i * d i))
  let f ← Prog.eval y
  if f < s.fxb then return { s.record y f b1 with x := y }
  else if Fl.eqB f s.fx = true then return { s with x := Function.update y i (s.x i) }
  else if s.fx < f then ls1v1Second b1 b2 i (s.x i) y s
  else return s.accept y f b2

/-- `mts_ls1v1` (mts.py:82-135). -/
def ls1v1 (B : Box D) (b1 b2 : Fl) (s : LS D) : Prog (Vec D) (LS D) := do
  let d ← unifVec (fun _ => Fl.fin (-1)) (fun _ => Fl.fin 1)
  forFin D (ls1v1Step b1 b2 d) (s.start B)

/-- The second trial of `mts_ls2` (mts.py:199-204). -/
def ls2Second (b1 b2 : Fl) (d : Vec D) (r : Fin D → Fin 4) (s : LS D) : Prog (Vec D) (LS D) := do
  let y ← Prog.repair fun j => if r j = 0 then s.x j + s.sr j * d j else s.x j
  let f ← Prog.eval y
  if f < s.fxb then return s.record y f b1
  else if f < s.fx then return s.accept y f b2
  else return s

/-- Body of the loop of `mts_ls2` (mts.py:191-206). -/
def ls2Step (b1 b2 : Fl) (s : LS D) : Prog (Vec D) (LS D) := do
  let u ← randVec D
  let d : Vec D := fun j => Fl.fin (-1) + u j * Fl.ofNat 2
  let r ← tabM D fun _ => intFin 4
  let y ← Prog.repair fun j => if r j = 0 then s.x j - s.sr j * d j else s.x j
  let f ← Prog.eval y
  if f < s.fxb then return s.record y f b1
  else if Fl.eqB f s.fx = true then return s
  else if s.fx < f then ls2Second b1 b2 d r s
  else return s.accept y f b2

/-- `mts_ls2` (mts.py:155-207). -/
def ls2 (B : Box D) (b1 b2 : Fl) (s : LS D) : Prog (Vec D) (LS D) := forFin D (fun _ => ls2Step b1 b2) (s.start B)

/-- `current_fitness - f if np.abs(f) != np.inf else 0` (mts.py:248-249). -/
def gain (fx f : Fl) : Fl := if f = .pinf ∨ f = .ninf then 0 else fx - f

/-- `if f < best_fitness: grade, best_x, best_fitness, improve = grade + bonus1, y.copy(), f, True` (mts.py:242-247). -/
def LS.record3 (s : LS D) (y : Vec D) (f b1 : Fl) : LS D :=
  if f < s.fxb then { s.record y f b1 with imp := true } else s

/-- `if d > 0: grade, improve = grade + bonus2, True` (mts.py:250-255). -/
def LS.reward (s : LS D) (d b2 : Fl) : LS D := if 0 < d then { s with imp := true, grade := s.grade + b2 } else s

/-- Mts.py:259-265: the new `x_new` (`y`, with fitness `f`). From then on `current_x` is the same array as `x_new`, which is
changed further in the following rounds; `moved` says so. -/
def ls3Take (b1 b2 : Fl) (y : Vec D) (f : Fl) (s : LS D) (moved : Bool) : LS D × Vec D × Bool :=
  if f < s.fx then
    ({ (if f < s.fxb then s.record y f b1 else { s with grade := s.grade + b2 }) with fx := f, imp := true }, y, true)
  else (s, y, moved)

/-- Body of the loop of `mts_ls3` (mts.py:238-265). -/
def ls3Step (b1 b2 : Fl) (i : Fin D) (a : LS D × Vec D × Bool) : Prog (Vec D) (LS D × Vec D × Bool) := do
  let (s, z, moved) := a
  let y1 ← Prog.repair (Function.update z i (z i + lit 1 10))
  let y2 ← Prog.repair (Function.update z i (z i - lit 1 10))
  let y3 ← Prog.repair (Function.update z i (z i + lit 2 10))
  let f1 ← Prog.eval y1
  let f2 ← Prog.eval y2
  let f3 ← Prog.eval y3
  let s := ((s.record3 y1 f1 b1).record3 y2 f2 b1).record3 y3 f3 b1
  let d1 := gain s.fx f1
  let d2 := gain s.fx f2
  let d3 := gain s.fx f3
  let s := ((s.reward d1 b2).reward d2 b2).reward d3 b2
  let ra ← Prog.rand
  let rb ← Prog.rand
  let rc ← Prog.rand
  let y ← Prog.repair (Function.update z i (z i +
    ((lit 4 10 + ra * lit 1 10) * (d1 - d2) + (lit 1 10 + rb * lit 2 10) * (d3 - Fl.ofNat 2 * d1) + rc)))
  let f ← Prog.eval y
  return ls3Take b1 b2 y f s moved

/-- `mts_ls3` (mts.py:210-266). -/
def ls3 (b1 b2 : Fl) (s : LS D) : Prog (Vec D) (LS D) := do
  let r ← forFin D (ls3Step b1 b2) ({ s with grade := Fl.ofNat 0 }, s.x, false)
  return if r.2.2 then { r.1 with x := r.2.1 } else r.1

/-- The candidate with the smallest fitness value, the first one if there are several (`np.argmin`). -/
def pick : List (Vec D × Fl) → Option (Vec D × Fl)
  | [] => none
  | a :: l => some (l.foldl (fun c b => if b.2 < c.2 then b else c) a)

/-- Selection among the three candidates of `mts_ls3v1` (mts.py:301-309). -/
def ls3v1Take (b1 b2 : Fl) (new : List (Vec D × Fl)) (s : LS D) : LS D :=
  let best := new.filter fun e => e.2 < s.fxb
  let better := new.filter fun e => e.2 < s.fx
  let grade := s.grade + (Fl.ofNat best.length * b1 + (Fl.ofNat better.length - Fl.ofNat best.length) * b2)
  match pick best with
  | some e => { s with x := e.1, fx := e.2, xb := e.1, fxb := e.2, same := false, imp := true, grade := grade }
  | none =>
    match pick better with
    | some e => { s with x := e.1, fx := e.2, imp := true, grade := grade }
    | none => { s with grade := grade }

/-- `np.fmin` / `np.fmax`: the other argument if one is NaN. -/
def fmin (a b : Fl) : Fl := if a = .nan then b else if b = .nan then a else if b < a then b else a
def fmax (a b : Fl) : Fl := if a = .nan then b else if b = .nan then a else if a < b then b else a

/-- The loop of `mts_ls3v1` (mts.py:297-311); `fuel` bounds the number of rounds. -/
def ls3v1Loop (B : Box D) (b1 b2 : Fl) : ℕ → Vec D → LS D → Prog (Vec D) (LS D)
  | 0, disp, s => if (List.finRange D).any fun j => lit 1 1000 < disp j then .throw .outOfFuel else return s
  | fuel + 1, disp, s =>
    if (List.finRange D).any fun j => lit 1 1000 < disp j then do
      let rows ← tabM 3 fun _ => do
        let p ← permIdx D
        let u ← unifVec (fun _ => Fl.fin (-1)) (fun _ => Fl.fin 1)
        return (fun j => s.x (p j) + disp j * u j : Vec D)
      let rows ← repairRows rows
      let fs ← evalRows rows
      let s := ls3v1Take b1 b2 (List.ofFn fun i => (rows i, fs i)) s
      ls3v1Loop B b1 b2 fuel (fun j =>
        (fmin (B.hi j) (s.x j + Fl.ofNat 2 * disp j) - fmax (B.lo j) (s.x j - Fl.ofNat 2 * disp j)) / Fl.ofNat 10) s
    else return s

/-- `mts_ls3v1` (mts.py:269-312) with `phi = 3`. -/
def ls3v1 (B : Box D) (fuel : ℕ) (b1 b2 : Fl) (s : LS D) : Prog (Vec D) (LS D) :=
  ls3v1Loop B b1 b2 fuel (fun j => (B.hi j - B.lo j) / Fl.ofNat 10) { s with grade := Fl.ofNat 0 }

/-- The local searches of the library. -/
inductive Search where
  | ls1 | ls1v1 | ls2 | ls3
  /-- with a bound on the rounds of its loop -/
  | ls3v1 (fuel : ℕ)
  deriving DecidableEq

/-- Is the loop of the search bounded? -/
def Search.bounded : Search → Bool
  | .ls3v1 _ => false
  | _ => true

/-- A call of a local search. -/
def Search.run (B : Box D) (b1 b2 : Fl) : Search → LS D → Prog (Vec D) (LS D)
  | .ls1 => MTS.ls1 B b1 b2
  | .ls1v1 => MTS.ls1v1 B b1 b2
  | .ls2 => MTS.ls2 B b1 b2
  | .ls3 => MTS.ls3 b1 b2
  | .ls3v1 fuel => MTS.ls3v1 B fuel b1 b2

/-- Parameters (mts.py:366-391). -/
structure Par where
  tests : ℕ
  searches : ℕ
  best : ℕ
  enabled : ℕ
  b1 : Fl
  b2 : Fl
  ls : List Search

/-- The tests of `grading_run` (mts.py:462-467). The list `new_x` holds the same pair several times, so the searches continue from one
another; the bonuses are passed under names the searches do not know, so the defaults are used; the grades are summed up in an
array of length 3 that is not used further. -/
def grade (B : Box D) (p : Par) (s : LS D) : Prog (Vec D) (LS D) :=
  forList p.ls.zipIdx (fun k s => forFin p.tests (fun _ s => do
    let s ← k.1.run B (Fl.ofNat 10) (Fl.ofNat 1) s
    if 3 ≤ k.2 then .throw .indexError else return s) s) s

/-- `run_local_search` (mts.py:471-499). -/
def runLS (B : Box D) (b1 b2 : Fl) (n : ℕ) (k : Search) (s : LS D) : Prog (Vec D) (LS D) :=
  forFin n (fun _ s => do
    let r ← k.run B b1 b2 s
    return { r with grade := s.grade + r.grade }) s

/-- `grading_run` followed by `run_local_search` with the index it returns, which is that of the last search (mts.py:564-565). The
flag `improve` that `grading_run` computes is lost, the search range is not (it is changed in place). Without searches `min` of
an empty list raises `ValueError`. -/
def improve (B : Box D) (p : Par) (s : LS D) : Prog (Vec D) (LS D) := do
  let r ← grade B p s
  match p.ls.getLast? with
  | none => .throw .valueError
  | some k => runLS B p.b1 p.b2 p.searches k { r with imp := s.imp, grade := Fl.ofNat 0 }

/-- State of a run (mts.py:501-529). -/
structure St (D N : ℕ) where
  pop : Fin N → Vec D
  fit : Fin N → Fl
  enable : Fin N → Bool
  imp : Fin N → Bool
  sr : Fin N → Vec D
  grades : Fin N → Fl

/-- `init_population` (mts.py:501-529). -/
def init (B : Box D) (N : ℕ) : Prog (Vec D) (St D N) := do
  let (pop, fit) ← defaultNumpyInit B N
  return ⟨pop, fit, fun _ => true, fun _ => true, fun _ j => (B.hi j - B.lo j) / Fl.ofNat 2, fun _ => Fl.ofNat 0⟩

/-- Body of the loop over the population (mts.py:561-566). -/
def turn (B : Box D) (p : Par) (i : Fin N) (a : St D N × Vec D × Fl) : Prog (Vec D) (St D N × Vec D × Fl) :=
  if a.1.enable i then do
    let s := a.1
    let r ← improve B p ⟨s.pop i, s.fit i, a.2.1, a.2.2, false, s.imp i, s.sr i, Fl.ofNat 0⟩
    return (⟨Function.update s.pop i r.x, Function.update s.fit i r.fx, Function.update s.enable i false, Function.update s.imp i r.imp,
      Function.update s.sr i r.sr, Function.update s.grades i r.grade⟩, r.best, r.fxb)
  else return a

/-- The searches around the best solution (mts.py:567-569): `current_x` and `best_x` are the same array. -/
def polish (B : Box D) (n : ℕ) (a : Vec D × Fl) : Prog (Vec D) (Vec D × Fl) :=
  forFin n (fun _ a => do
    let r ← ls1 B (Fl.ofNat 10) (Fl.ofNat 1)
      ⟨a.1, a.2, a.1, a.2, true, false, fun j => (B.hi j - B.lo j) / Fl.ofNat 10, Fl.ofNat 0⟩
    return (r.best, r.fxb)) a

/-- `run_iteration` (mts.py:531-571). -/
def iter (B : Box D) (p : Par) (s : St D N) (xb : Vec D) (fxb : Fl) : Prog (Vec D) (St D N × Vec D × Fl) := do
  let a ← forFin N (turn B p) (s, xb, fxb)
  let b ← polish B p.best a.2
  let o ← sortIdx a.1.grades
  return ({ a.1 with enable := fun i => a.1.enable i || (List.finRange N).any fun k => decide ((k : ℕ) < p.enabled ∧ o k = i) }, b)

/-- MultipleTrajectorySearch and, with the searches `ls1v1` and `ls2` and without searches around the best solution,
MultipleTrajectorySearchV1 (mts.py:574-656). -/
def alg (B : Box D) (N : ℕ) (p : Par) : Alg (Vec D) where
  σ := St D N
  init := init B N
  pop s := List.ofFn s.pop
  fit s := List.ofFn s.fit
  iter := iter B p

/-- The parameters of MultipleTrajectorySearchV1 (mts.py:618-637). -/
def parV1 (tests searches enabled : ℕ) (b1 b2 : Fl) : Par := ⟨tests, searches, 0, enabled, b1, b2, [.ls1v1, .ls2]⟩

/-! ### The obligations -/

variable {C : Ctx (Vec D)} {g : Ghost (Vec D)} {A M : Prop} {s : LS D} {B : Box D} {p : Par}

/-- What the searches need of repair functions and objectives: no fitness value is NaN, all points are within the bounds, and repair
does not touch the coordinates that are within the bounds. -/
structure Laws (B : Box D) (C : Ctx (Vec D)) : Prop where
  nn : ∀ x v, C.F x v → v ≠ .nan
  inside : ∀ x v, C.F x v → B.NotOut x
  keep : ∀ z y, C.R z y → ∀ i, ¬ z i < B.lo i → ¬ B.hi i < z i → y i = z i

omit [Arith] in
theorem Laws.restore (h : Laws B C) {x y : Vec D} {i : Fin D} {v : Fl} (hx : B.NotOut x) (h1 : C.R (Function.update x i v) y) :
    Function.update y i (x i) = x := by
  funext j
  by_cases e : j = i
  · subst e; simp
  · rw [Function.update_of_ne e, h.keep _ _ h1 j] <;> rw [Function.update_of_ne e]
    exacts [(hx j).1, (hx j).2]

omit [Arith] in
theorem Laws.second (h : Laws B C) {x y y2 : Vec D} {i : Fin D} {v v2 : Fl} (hx : B.NotOut x) (h1 : C.R (Function.update x i v) y)
    (h2 : C.R (Function.update y i v2) y2) : Function.update y2 i (x i) = x := by
  have e1 := h.restore hx h1
  have e : ∀ j, j ≠ i → y j = x j := fun j hj => by rw [← congrFun e1 j, Function.update_of_ne hj]
  funext j
  by_cases hj : j = i
  · subst hj; simp
  · rw [Function.update_of_ne hj, h.keep _ _ h2 j] <;> rw [Function.update_of_ne hj, e j hj]
    exacts [(hx j).1, (hx j).2]

theorem wp_then {α : Type} {p : Prog (Vec D) α} {Q Q' : α → Ghost (Vec D) → Prop} (hp : p.wp C Q g) (h : ∀ a g, Q a g → Q' a g) : p.wp C Q' g :=
  Prog.wp_mono h hp

/-- Invariant inside a local search. If `A`, then solution and fitness belong together; if `M`, then `best_x` is another array
than `current_x`. -/
structure Ok (B : Box D) (C : Ctx (Vec D)) (A M : Prop) (s : LS D) (g : Ghost (Vec D)) : Prop where
  cur : ∃ y, C.Fit g.b y s.fx
  inc : Inc C s.best s.fxb g
  tie : s.same = true → Untied C ∨ s.fx = s.fxb ∧ Laws B C
  ali : A → C.Fit g.b s.x s.fx
  sep : M → s.same = false

omit [Arith] in
/-- After the evaluation of `y`. -/
theorem Ok.next (h : Ok B C A M s g) {y : Vec D} {f : Fl} (hf : C.F y f) {t : LS D}
    (hb : f < s.fxb → t.same = false ∧ t.xb = y ∧ t.fxb = f)
    (hn : ¬ f < s.fxb → t.same = s.same ∧ t.xb = s.xb ∧ t.fxb = s.fxb) (hfx : t.fx = s.fx ∨ t.fx = f)
    (hA : A → t.x = s.x ∧ t.fx = s.fx ∨ t.x = y ∧ t.fx = f)
    (hx : s.same = true → ¬ f < s.fxb → Laws B C → s.fx = s.fxb → B.NotOut s.x → t.fx = s.fx ∧ t.x = s.x) : Ok B C A M t (g.eval f) where
  cur := by
    rcases hfx with e | e
    · obtain ⟨z, hz⟩ := h.cur; exact ⟨z, e ▸ hz.eval _⟩
    · exact ⟨y, by rw [e]; exact .new hf⟩
  inc := by
    by_cases hlt : f < s.fxb
    · obtain ⟨e1, e2, e3⟩ := hb hlt
      simp only [LS.best, e1, e2, e3, Bool.false_eq_true, if_false]
      exact h.inc.take hf (Fl.le_of_lt hlt)
    · obtain ⟨e1, e2, e3⟩ := hn hlt
      have hk := h.inc.keep_of_not_lt hf hlt
      rw [e3]
      cases hs : s.same with
      | false => simpa [LS.best, e1, e2, hs] using hk
      | true =>
        rcases h.tie hs with hu | ⟨htie, hl⟩
        · exact ⟨hu _ _ _ hk.fit, hk.eq⟩
        · have hb : s.best = s.x := by simp [LS.best, hs]
          have hx' := hx hs hlt hl htie (hl.inside _ _ (hb ▸ h.inc.fit))
          simpa [LS.best, e1, hs, hx'.2] using hk
  tie ht := by
    by_cases hlt : f < s.fxb
    · rw [(hb hlt).1] at ht; cases ht
    · obtain ⟨e1, e2, e3⟩ := hn hlt
      rw [e1] at ht
      rcases h.tie ht with hu | ⟨htie, hl⟩
      · exact Or.inl hu
      · have hb : s.best = s.x := by simp [LS.best, ht]
        exact Or.inr ⟨by rw [(hx ht hlt hl htie (hl.inside _ _ (hb ▸ h.inc.fit))).1, e3, htie], hl⟩
  ali ha := by
    rcases hA ha with ⟨e1, e2⟩ | ⟨e1, e2⟩
    · rw [e1, e2]; exact (h.ali ha).eval _
    · rw [e1, e2]; exact .new hf
  sep hm := by
    by_cases hlt : f < s.fxb
    · exact (hb hlt).1
    · exact (hn hlt).1.trans (h.sep hm)

/-- Changes that do not matter. -/
theorem Ok.congr (h : Ok B C A M s g) {t : LS D} (h1 : t.fx = s.fx) (h2 : t.xb = s.xb) (h3 : t.fxb = s.fxb) (h4 : t.same = s.same)
    (h5 : t.x = s.x) : Ok B C A M t g :=
  ⟨h1 ▸ h.cur, by have := h.inc; simpa [LS.best, h2, h3, h4, h5] using this, by rw [h1, h3, h4]; exact h.tie, by rw [h1, h5]; exact h.ali, by rw [h4]; exact h.sep⟩

/-- Repair a point and evaluate it. -/
theorem wp_try {α : Type} {z : Vec D} {k : Vec D → Fl → Prog (Vec D) α} {Q : α → Ghost (Vec D) → Prop}
    (h : ∀ y f, C.G y → C.R z y → C.F y f → (k y f).wp C Q (g.eval f)) :
    (do let y ← Prog.repair z; let f ← Prog.eval y; k y f : Prog (Vec D) α).wp C Q g := by
  rw [Prog.wp_bind', Prog.wp_repair]
  refine ⟨.inl rfl, fun y hy hr => ?_⟩
  rw [Prog.wp_bind', Prog.wp_eval]
  exact ⟨hy, fun f hf => h y f hy hr hf⟩

theorem record_lt {y : Vec D} {f b : Fl} (h : f < s.fxb) : (s.record y f b).same = false ∧ (s.record y f b).xb = y ∧ (s.record y f b).fxb = f := by
  simp [LS.record, h]

theorem record_not {y : Vec D} {f b : Fl} (h : ¬ f < s.fxb) : s.record y f b = s := by simp [LS.record, h]

theorem record_x {y : Vec D} {f b : Fl} : (s.record y f b).x = s.x := by unfold LS.record; split <;> rfl
theorem record_fx {y : Vec D} {f b : Fl} : (s.record y f b).fx = s.fx := by unfold LS.record; split <;> rfl

/-- The bounds on the number of evaluations are kept beside the invariant; `bd` says whether there is an upper one. -/
def Cnt (bd : Prop) (J : Prop) (c0 lo hi : ℕ) (g : Ghost (Vec D)) : Prop := J ∧ c0 + lo ≤ g.c ∧ (bd → g.c ≤ c0 + hi)

/-- A loop whose rounds need between `lo` and `hi` evaluations. -/
theorem wp_forFin_cnt {σ : Type} {n : ℕ} {f : Fin n → σ → Prog (Vec D) σ} {s0 : σ} {bd : Prop} {lo hi : ℕ} {J : σ → Ghost (Vec D) → Prop}
    {Q : σ → Ghost (Vec D) → Prop} (h0 : J s0 g)
    (hf : ∀ i t g', J t g' → (f i t).wp C (fun t' g'' => Cnt bd (J t' g'') g'.c lo hi g'') g')
    (hQ : ∀ t g', Cnt bd (J t g') g.c (n * lo) (n * hi) g' → Q t g') : (forFin n f s0).wp C Q g := by
  refine wp_then (wp_forFin (fun k t g' => Cnt bd (J t g') g.c (k * lo) (k * hi) g') ⟨h0, by simp, fun _ => by simp⟩ ?_) ?_
  · rintro i t g' ⟨h1, h2, h3⟩
    refine wp_then (hf i t g' h1) ?_
    rintro t' g'' ⟨k1, k2, k3⟩
    refine ⟨k1, ?_, fun hb => ?_⟩
    · rw [Nat.add_mul]; omega
    · have := h3 hb; have := k3 hb; rw [Nat.add_mul]; omega
  · exact fun t g' h => hQ t g' h

theorem Ok.start (h : Ok B C A M s g) : Ok B C A M (s.start B) g := h.congr rfl rfl rfl rfl rfl

/-! #### `mts_ls1` -/

theorem wp_ls1Second {b1 b2 : Fl} {i : Fin D} {o : Fl} {y : Vec D} {bd : Prop} (h : Ok B C A M s g)
    (hAL : A → Laws B C)
    (hxy : Laws B C → B.NotOut s.x → o = s.x i ∧ ∃ v, C.R (Function.update s.x i v) y) :
    (ls1Second b1 b2 i o y s).wp C (fun t g' => Cnt bd (Ok B C A M t g') g.c 1 1 g') g := by
  refine wp_try fun y2 f _ hr hf => ?_
  have hx : Laws B C → B.NotOut s.x → Function.update y2 i o = s.x := by
    intro hl hx
    obtain ⟨e, v, hv⟩ := hxy hl hx
    exact e ▸ hl.second hx hv hr
  dsimp only
  split
  · refine ⟨h.next hf (fun hlt => record_lt hlt) (fun hlt => by simp [record_not hlt]) (.inl record_fx) (fun ha => ?_)
      (fun hs hlt hl he hn => ?_), by simp [Ghost.eval], fun _ => by simp [Ghost.eval]⟩
    · have hl := hAL ha
      exact .inl ⟨hx hl (hl.inside _ _ (h.ali ha).1), record_fx⟩
    · exact ⟨by simp [record_not hlt], hx hl hn⟩
  · rename_i hle
    refine ⟨h.next hf (fun hlt => ?_) (fun hlt => by simp [LS.accept, record_not hlt]) (.inr rfl) (fun ha => .inr ⟨rfl, rfl⟩)
      (fun hs hlt hl he hn => ?_), by simp [Ghost.eval], fun _ => by simp [Ghost.eval]⟩
    · exact record_lt (b := b1) hlt
    · exfalso
      rw [record_fx, he] at hle
      exact hle (Fl.le_of_not_lt (hl.nn _ _ hf) (hl.nn _ _ h.inc.fit) hlt)

theorem wp_ls1Step {b1 b2 : Fl} {i : Fin D} {bd : Prop} (h : Ok B C A M s g) (hAL : A → Laws B C) :
    (ls1Step b1 b2 i s).wp C (fun t g' => Cnt bd (Ok B C A M t g') g.c 1 2 g') g := by
  refine wp_try fun y f _ hr hf => ?_
  have hx : Laws B C → B.NotOut s.x → Function.update y i (s.x i) = s.x := fun hl hx => hl.restore hx hr
  dsimp only
  split
  · refine ⟨h.next hf (fun hlt => record_lt hlt) (fun hlt => by simp [record_not hlt]) (.inl record_fx) (fun ha => ?_)
      (fun hs hlt hl he hn => ?_), by simp [Ghost.eval], fun _ => by simp [Ghost.eval]⟩
    · have hl := hAL ha
      exact .inl ⟨hx hl (hl.inside _ _ (h.ali ha).1), record_fx⟩
    · exact ⟨by simp [record_not hlt], hx hl hn⟩
  · rename_i hne
    split
    · rename_i hlt'
      have h' : Ok B C A M (s.record y f b1) (g.eval f) := by
        refine h.next hf (fun hlt => record_lt hlt) (fun hlt => by simp [record_not hlt]) (.inl record_fx)
          (fun ha => .inl ⟨record_x, record_fx⟩) (fun hs hlt hl he hn => ⟨record_fx, record_x⟩)
      refine wp_then (wp_ls1Second (bd := bd) h' hAL fun hl hn => ⟨by rw [record_x], s.x i - s.sr i, ?_⟩) ?_
      · rw [record_x]; exact hr
      · rintro t g' ⟨k1, k2, k3⟩
        simp only [Ghost.eval] at k2 k3
        exact ⟨k1, by omega, fun hb => by have := k3 hb; omega⟩
    · rename_i hnl
      refine ⟨h.next hf (fun hlt => record_lt (b := b1) hlt) (fun hlt => by simp [LS.accept, record_not hlt]) (.inr rfl)
        (fun ha => .inr ⟨rfl, rfl⟩) (fun hs hlt hl he hn => ?_), by simp [Ghost.eval], fun _ => by simp [Ghost.eval]⟩
      exfalso
      have h1 := Fl.le_of_not_lt (hl.nn _ _ hf) (hl.nn _ _ h.inc.fit) hlt
      have h2 := Fl.le_of_not_lt (he ▸ hl.nn _ _ h.inc.fit) (hl.nn _ _ hf) hnl
      rw [← he] at h1
      exact hne (by simp [Fl.eqB, Fl.le_antisymm h2 h1, (he ▸ hl.nn _ _ h.inc.fit : s.fx ≠ .nan)])

theorem wp_ls1 {b1 b2 : Fl} {bd : Prop} (h : Ok B C A M s g) (hAL : A → Laws B C) :
    (ls1 B b1 b2 s).wp C (fun t g' => Cnt bd (Ok B C A M t g') g.c D (2 * D) g') g :=
  wp_forFin_cnt (bd := bd) (lo := 1) (hi := 2) (J := fun t g' => Ok B C A M t g') h.start (fun _ _ _ h => wp_ls1Step h hAL) fun t g' ⟨h1, h2, h3⟩ =>
    ⟨h1, by omega, fun hb => by have := h3 hb; omega⟩

/-! #### The other searches -/

/-- The invariant of the other searches: `best_x` is another array than `current_x`. -/
def Sep (B : Box D) (C : Ctx (Vec D)) (A : Prop) (s : LS D) (g : Ghost (Vec D)) : Prop := s.same = false ∧ Ok B C A True s g

/-- As `Ok.next`. -/
theorem Sep.next (h : Sep B C A s g) {y : Vec D} {f : Fl} (hf : C.F y f) {t : LS D} (hs : t.same = false)
    (hb : f < s.fxb → t.xb = y ∧ t.fxb = f) (hn : ¬ f < s.fxb → t.xb = s.xb ∧ t.fxb = s.fxb) (hfx : t.fx = s.fx ∨ t.fx = f)
    (hA : A → t.x = s.x ∧ t.fx = s.fx ∨ t.x = y ∧ t.fx = f) : Sep B C A t (g.eval f) :=
  ⟨hs, h.2.next hf (fun hlt => ⟨hs, hb hlt⟩) (fun hlt => ⟨hs.trans h.1.symm, hn hlt⟩) hfx hA fun hs' => by rw [h.1] at hs'; cases hs'⟩

theorem Sep.congr (h : Sep B C A s g) {t : LS D} (h1 : t.fx = s.fx) (h2 : t.xb = s.xb) (h3 : t.fxb = s.fxb) (h4 : t.same = s.same)
    (h5 : A → t.x = s.x) : Sep B C A t g := by
  have hs : t.same = false := h4.trans h.1
  exact ⟨hs, h1 ▸ h.2.cur, by have := h.2.inc; simpa [LS.best, h2, h3, hs, h.1] using this, by rw [hs]; exact nofun,
    fun ha => by rw [h1, h5 ha]; exact h.2.ali ha, fun _ => hs⟩

theorem Sep.start (h : Sep B C A s g) : Sep B C A (s.start B) g := ⟨h.1, h.2.start⟩

theorem record_same {y : Vec D} {f b : Fl} (h : s.same = false) : (s.record y f b).same = false := by
  unfold LS.record; split <;> first | rfl | exact h

theorem wp_ls1v1Second {b1 b2 : Fl} {i : Fin D} {o : Fl} {y : Vec D} {bd : Prop} (hA : ¬ A) (h : Sep B C A s g) :
    (ls1v1Second b1 b2 i o y s).wp C (fun t g' => Cnt bd (Sep B C A t g') g.c 1 1 g') g := by
  refine wp_try fun y2 f _ hr hf => ?_
  split
  · rename_i hlt
    refine ⟨h.next hf (record_lt hlt).1 (fun hlt => (record_lt hlt).2) (fun hn => absurd hlt hn) (.inl record_fx) (fun ha => absurd ha hA),
      by simp [Ghost.eval], fun _ => by simp [Ghost.eval]⟩
  · rename_i hlt
    split
    · exact ⟨h.next hf h.1 (fun h' => absurd h' hlt) (fun _ => ⟨rfl, rfl⟩) (.inl rfl) (fun ha => absurd ha hA),
        by simp [Ghost.eval], fun _ => by simp [Ghost.eval]⟩
    · exact ⟨h.next hf h.1 (fun h' => absurd h' hlt) (fun _ => ⟨rfl, rfl⟩) (.inr rfl) (fun ha => absurd ha hA),
        by simp [Ghost.eval], fun _ => by simp [Ghost.eval]⟩

theorem wp_ls1v1Step {b1 b2 : Fl} {i : Fin D} {d : Vec D} {bd : Prop} (hA : ¬ A) (h : Sep B C A s g) :
    (ls1v1Step b1 b2 d i s).wp C (fun t g' => Cnt bd (Sep B C A t g') g.c 1 2 g') g := by
  refine wp_try fun y f _ hr hf => ?_
  have hk : ¬ f < s.fxb → ∀ t : LS D, t.same = false → t.xb = s.xb → t.fxb = s.fxb → t.fx = s.fx ∨ t.fx = f →
      Cnt bd (Sep B C A t (g.eval f)) g.c 1 2 (g.eval f) := fun hlt t h1 h2 h3 h4 =>
    ⟨h.next hf h1 (fun h' => absurd h' hlt) (fun _ => ⟨h2, h3⟩) h4 (fun ha => absurd ha hA), by simp [Ghost.eval], fun _ => by simp [Ghost.eval]⟩
  split
  · rename_i hlt
    refine ⟨h.next hf (record_lt hlt).1 (fun hlt => (record_lt hlt).2) (fun hn => absurd hlt hn) (.inl record_fx) (fun ha => absurd ha hA),
      by simp [Ghost.eval], fun _ => by simp [Ghost.eval]⟩
  · rename_i hlt
    split
    · exact hk hlt _ h.1 rfl rfl (.inl rfl)
    · split
      · have h' : Sep B C A s (g.eval f) :=
          h.next hf h.1 (fun h' => absurd h' hlt) (fun _ => ⟨rfl, rfl⟩) (.inl rfl) (fun ha => absurd ha hA)
        refine wp_then (wp_ls1v1Second (bd := bd) hA h') ?_
        rintro t g' ⟨k1, k2, k3⟩
        simp only [Ghost.eval] at k2 k3
        exact ⟨k1, by omega, fun hb => by have := k3 hb; omega⟩
      · exact hk hlt _ h.1 rfl rfl (.inr rfl)

theorem wp_ls1v1 {b1 b2 : Fl} {bd : Prop} (hA : ¬ A) (h : Sep B C A s g) :
    (ls1v1 B b1 b2 s).wp C (fun t g' => Cnt bd (Sep B C A t g') g.c D (2 * D) g') g := by
  unfold ls1v1
  rw [Prog.wp_bind']
  refine Yields.wp (P := fun _ => True) (by yields) fun d _ => ?_
  exact wp_forFin_cnt (bd := bd) (lo := 1) (hi := 2) (J := fun t g' => Sep B C A t g') h.start (fun _ _ _ h => wp_ls1v1Step hA h)
    fun t g' ⟨h1, h2, h3⟩ => ⟨h1, by omega, fun hb => by have := h3 hb; omega⟩

theorem wp_ls2Second {b1 b2 : Fl} {d : Vec D} {r : Fin D → Fin 4} {bd : Prop} (h : Sep B C A s g) :
    (ls2Second b1 b2 d r s).wp C (fun t g' => Cnt bd (Sep B C A t g') g.c 1 1 g') g := by
  refine wp_try fun y f _ hr hf => ?_
  split
  · rename_i hlt
    exact ⟨h.next hf (record_lt hlt).1 (fun hlt => (record_lt hlt).2) (fun hn => absurd hlt hn) (.inl record_fx)
      (fun _ => .inl ⟨record_x, record_fx⟩), by simp [Ghost.eval], fun _ => by simp [Ghost.eval]⟩
  · rename_i hlt
    split
    · exact ⟨h.next hf h.1 (fun h' => absurd h' hlt) (fun _ => ⟨rfl, rfl⟩) (.inr rfl) (fun _ => .inr ⟨rfl, rfl⟩),
        by simp [Ghost.eval], fun _ => by simp [Ghost.eval]⟩
    · exact ⟨h.next hf h.1 (fun h' => absurd h' hlt) (fun _ => ⟨rfl, rfl⟩) (.inl rfl) (fun _ => .inl ⟨rfl, rfl⟩),
        by simp [Ghost.eval], fun _ => by simp [Ghost.eval]⟩

theorem wp_ls2Step {b1 b2 : Fl} {bd : Prop} (h : Sep B C A s g) :
    (ls2Step b1 b2 s).wp C (fun t g' => Cnt bd (Sep B C A t g') g.c 1 2 g') g := by
  unfold ls2Step
  rw [Prog.wp_bind']
  refine Yields.wp (P := fun _ => True) (by yields) fun u _ => ?_
  dsimp only
  rw [Prog.wp_bind']
  refine Yields.wp (P := fun _ => True) (by yields) fun r _ => ?_
  refine wp_try fun y f _ hr hf => ?_
  split
  · rename_i hlt
    exact ⟨h.next hf (record_lt hlt).1 (fun hlt => (record_lt hlt).2) (fun hn => absurd hlt hn) (.inl record_fx)
      (fun _ => .inl ⟨record_x, record_fx⟩), by simp [Ghost.eval], fun _ => by simp [Ghost.eval]⟩
  · rename_i hlt
    have h' : Sep B C A s (g.eval f) :=
      h.next hf h.1 (fun h' => absurd h' hlt) (fun _ => ⟨rfl, rfl⟩) (.inl rfl) (fun _ => .inl ⟨rfl, rfl⟩)
    split
    · exact ⟨h', by simp [Ghost.eval], fun _ => by simp [Ghost.eval]⟩
    · split
      · refine wp_then (wp_ls2Second (bd := bd) h') ?_
        rintro t g' ⟨k1, k2, k3⟩
        simp only [Ghost.eval] at k2 k3
        exact ⟨k1, by omega, fun hb => by have := k3 hb; omega⟩
      · exact ⟨h.next hf h.1 (fun h' => absurd h' hlt) (fun _ => ⟨rfl, rfl⟩) (.inr rfl) (fun _ => .inr ⟨rfl, rfl⟩),
          by simp [Ghost.eval], fun _ => by simp [Ghost.eval]⟩

theorem wp_ls2 {b1 b2 : Fl} {bd : Prop} (h : Sep B C A s g) :
    (ls2 B b1 b2 s).wp C (fun t g' => Cnt bd (Sep B C A t g') g.c D (2 * D) g') g :=
  wp_forFin_cnt (bd := bd) (lo := 1) (hi := 2) (J := fun t g' => Sep B C A t g') h.start (fun _ _ _ h => wp_ls2Step h)
    fun t g' ⟨h1, h2, h3⟩ => ⟨h1, by omega, fun hb => by have := h3 hb; omega⟩

theorem Sep.record3 (h : Sep B C A s g) {y : Vec D} {f b : Fl} (hf : C.F y f) : Sep B C A (s.record3 y f b) (g.eval f) := by
  unfold LS.record3
  split
  · rename_i hlt
    exact h.next hf (record_lt hlt).1 (fun hlt => (record_lt hlt).2) (fun hn => absurd hlt hn) (.inl record_fx) (fun _ => .inl ⟨record_x, record_fx⟩)
  · rename_i hlt
    exact h.next hf h.1 (fun h' => absurd h' hlt) (fun _ => ⟨rfl, rfl⟩) (.inl rfl) (fun _ => .inl ⟨rfl, rfl⟩)

theorem Sep.reward (h : Sep B C A s g) {d b : Fl} : Sep B C A (s.reward d b) g := by
  unfold LS.reward
  split
  · exact h.congr rfl rfl rfl rfl fun _ => rfl
  · exact h

/-- A value that is not looked at because it is worse than the current one. -/
theorem Sep.skip (h : Sep B C A s g) {y : Vec D} {f : Fl} (hf : C.F y f) (hnn : ¬ f < s.fx) : Sep B C A s (g.eval f) := by
  have hk : C.NN → ¬ f < s.fxb := fun hn hlt => by
    obtain ⟨z, hz⟩ := h.2.cur
    have e := h.2.inc.eq hn
    have hb : g.b ≠ .nan := e ▸ hn _ _ h.2.inc.fit
    exact hnn (Fl.lt_of_lt_of_le (e ▸ hlt) (hz.2 hn hb))
  refine ⟨h.1, h.2.cur.imp fun _ hz => hz.eval _, ⟨h.2.inc.fit, fun hn => (h.2.inc.keep_of_not_lt hf (hk hn)).eq hn⟩, ?_,
    fun ha => (h.2.ali ha).eval _, h.2.sep⟩
  rw [h.1]; exact nofun

theorem Sep.take (hA : ¬ A) (h : Sep B C A s g) {y : Vec D} {f b1 b2 : Fl} {m : Bool} (hf : C.F y f) :
    Sep B C A (ls3Take b1 b2 y f s m).1 (g.eval f) := by
  unfold ls3Take
  split
  · split
    · rename_i hlt
      exact h.next hf (record_lt hlt).1 (fun hlt => (record_lt hlt).2) (fun hn => absurd hlt hn) (.inr rfl) (fun ha => absurd ha hA)
    · rename_i hlt
      exact h.next hf h.1 (fun h' => absurd h' hlt) (fun _ => ⟨rfl, rfl⟩) (.inr rfl) (fun ha => absurd ha hA)
  · rename_i hlt
    exact h.skip hf hlt

theorem wp_ls3Step {b1 b2 : Fl} {i : Fin D} {bd : Prop} {a : LS D × Vec D × Bool} (hA : ¬ A) (h : Sep B C A a.1 g) :
    (ls3Step b1 b2 i a).wp C (fun t g' => Cnt bd (Sep B C A t.1 g') g.c 4 4 g') g := by
  obtain ⟨s, z, m⟩ := a
  unfold ls3Step
  dsimp only
  rw [Prog.wp_bind', Prog.wp_repair]
  refine ⟨.inl rfl, fun y1 hy1 _ => ?_⟩
  rw [Prog.wp_bind', Prog.wp_repair]
  refine ⟨.inl rfl, fun y2 hy2 _ => ?_⟩
  rw [Prog.wp_bind', Prog.wp_repair]
  refine ⟨.inl rfl, fun y3 hy3 _ => ?_⟩
  rw [Prog.wp_bind', Prog.wp_eval]
  refine ⟨hy1, fun f1 hf1 => ?_⟩
  rw [Prog.wp_bind', Prog.wp_eval]
  refine ⟨hy2, fun f2 hf2 => ?_⟩
  rw [Prog.wp_bind', Prog.wp_eval]
  refine ⟨hy3, fun f3 hf3 => ?_⟩
  rw [Prog.wp_bind']
  refine Yields.wp (P := fun _ => True) (by yields) fun ra _ => ?_
  rw [Prog.wp_bind']
  refine Yields.wp (P := fun _ => True) (by yields) fun rb _ => ?_
  rw [Prog.wp_bind']
  refine Yields.wp (P := fun _ => True) (by yields) fun rc _ => ?_
  refine wp_try fun y f _ _ hf => ?_
  refine ⟨Sep.take hA (((((h.record3 hf1).record3 hf2).record3 hf3).reward.reward).reward) hf, ?_, fun _ => ?_⟩ <;> simp only [Ghost.eval] <;> omega

theorem wp_ls3 {b1 b2 : Fl} {bd : Prop} (hA : ¬ A) (h : Sep B C A s g) :
    (ls3 b1 b2 s).wp C (fun t g' => Cnt bd (Sep B C A t g') g.c (4 * D) (4 * D) g') g := by
  unfold ls3
  rw [Prog.wp_bind']
  refine wp_forFin_cnt (bd := bd) (lo := 4) (hi := 4) (J := fun t g' => Sep B C A t.1 g') (h.congr rfl rfl rfl rfl fun _ => rfl)
    (fun _ _ _ h => wp_ls3Step hA h) ?_
  rintro ⟨t, z, m⟩ g' ⟨h1, h2, h3⟩
  refine ⟨?_, by omega, fun hb => by have := h3 hb; omega⟩
  dsimp only at h1 ⊢
  split
  · exact h1.congr rfl rfl rfl rfl fun ha => absurd ha hA
  · exact h1

/-! #### `mts_ls3v1` -/

omit [Arith] in
theorem pick_fold (l : List (Vec D × Fl)) (a : Vec D × Fl) : l.foldl (fun c b => if b.2 < c.2 then b else c) a ∈ a :: l ∧
    ((∀ b ∈ a :: l, b.2 ≠ .nan) → ∀ b ∈ a :: l, (l.foldl (fun c b => if b.2 < c.2 then b else c) a).2 ≤ b.2) := by
  induction l generalizing a with
  | nil => simpa using fun h => Fl.le_refl h
  | cons c l ih =>
    rw [List.foldl_cons]
    split
    · rename_i hlt
      refine ⟨List.mem_cons_of_mem _ (ih c).1, fun hn b hb => ?_⟩
      have := (ih c).2 fun b hb => hn b (List.mem_cons_of_mem _ hb)
      rcases List.mem_cons.1 hb with rfl | hb
      · exact Fl.le_trans (this c (by simp)) (Fl.le_of_lt hlt)
      · exact this b hb
    · rename_i hlt
      refine ⟨?_, fun hn b hb => ?_⟩
      · rcases List.mem_cons.1 (ih a).1 with h | h
        · rw [h]; simp
        · exact List.mem_cons_of_mem _ (List.mem_cons_of_mem _ h)
      · have := (ih a).2 fun b hb => hn b (by rcases List.mem_cons.1 hb with h | h <;> simp [h])
        rcases List.mem_cons.1 hb with rfl | hb
        · exact this _ (by simp)
        · rcases List.mem_cons.1 hb with rfl | hb
          · exact Fl.le_trans (this a (by simp)) (Fl.le_of_not_lt (hn _ (by simp)) (hn _ (by simp)) hlt)
          · exact this b (by simp [hb])

omit [Arith] in
theorem pick_some {l : List (Vec D × Fl)} {e : Vec D × Fl} (h : pick l = some e) :
    e ∈ l ∧ ((∀ b ∈ l, b.2 ≠ .nan) → ∀ b ∈ l, e.2 ≤ b.2) := by
  cases l with
  | nil => cases h
  | cons a l =>
    have : List.foldl (fun c b => if b.2 < c.2 then b else c) a l = e := Option.some.inj h
    rw [← this]; exact pick_fold l a

omit [Arith] in
theorem pick_none {l : List (Vec D × Fl)} (h : pick l = none) : l = [] := by
  cases l with
  | nil => rfl
  | cons a l => cases h

theorem Sep.pick (h : Sep B C A s g) {b1 b2 : Fl} {g' : Ghost (Vec D)} {rows : Fin 3 → Vec D} {r : Fin 3 → Fl} (hb : Below g'.b g.b)
    (hr : ∀ i, C.Fit g'.b (rows i) (r i)) (hc : Cov C (fun u => u = s.fxb ∨ ∃ i, u = r i) g') :
    Sep B C A (ls3v1Take b1 b2 (List.ofFn fun i => (rows i, r i)) s) g' := by
  have hmem : ∀ {q : Vec D × Fl → Bool} {e}, e ∈ (List.ofFn fun i => (rows i, r i)).filter q → C.Fit g'.b e.1 e.2 ∧ q e = true := by
    intro q e he
    obtain ⟨h1, h2⟩ := List.mem_filter.1 he
    obtain ⟨i, rfl⟩ := List.mem_ofFn.1 h1
    exact ⟨hr i, h2⟩
  have hin : ∀ i, (rows i, r i) ∈ List.ofFn fun i => (rows i, r i) := fun i => List.mem_ofFn.2 ⟨i, rfl⟩
  have hcur : ∃ y, C.Fit g'.b y s.fx := h.2.cur.imp fun _ hz => hz.mono hb
  have hfit : C.Fit g'.b s.best s.fxb := h.2.inc.toFit.mono hb
  have hbest : s.best = s.xb := by simp [LS.best, h.1]
  unfold ls3v1Take
  dsimp only
  split
  · rename_i e he
    obtain ⟨k1, k2⟩ := pick_some he
    obtain ⟨h1, h2⟩ := hmem k1
    have h2 : e.2 < s.fxb := of_decide_eq_true h2
    refine ⟨rfl, ⟨_, h1⟩, Inc.of_cov (by simpa [LS.best] using h1) (hc.weaken fun hn u hu hun => ⟨e.2, rfl, ?_⟩), nofun, fun _ => h1, fun _ => rfl⟩
    rcases hu with rfl | ⟨i, rfl⟩
    · exact Fl.le_of_lt h2
    · by_cases hlt : r i < s.fxb
      · refine k2 (fun b hb => hn _ _ (hmem hb).1.1) (rows i, r i) (List.mem_filter.2 ⟨hin i, decide_eq_true hlt⟩)
      · exact Fl.le_trans (Fl.le_of_lt h2) (Fl.le_of_not_lt hun (hn _ _ hfit.1) hlt)
  · rename_i he
    have hno : ∀ i, ¬ r i < s.fxb := fun i hlt => by
      have : (rows i, r i) ∈ (List.ofFn fun i => (rows i, r i)).filter fun e => e.2 < s.fxb := List.mem_filter.2 ⟨hin i, decide_eq_true hlt⟩
      rw [pick_none he] at this; cases this
    have hinc : Inc C s.best s.fxb g' := Inc.of_cov hfit (hc.weaken fun hn u hu hun => ⟨s.fxb, rfl, by
      rcases hu with rfl | ⟨i, rfl⟩
      · exact Fl.le_refl hun
      · exact Fl.le_of_not_lt hun (hn _ _ hfit.1) (hno i)⟩)
    split
    · rename_i e he'
      obtain ⟨h1, -⟩ := hmem (pick_some he').1
      refine ⟨h.1, ⟨_, h1⟩, ?_, ?_, fun _ => h1, fun _ => h.1⟩
      · simpa [LS.best, h.1] using hinc
      · intro hs; exact absurd (h.1.symm.trans hs) nofun
    · refine ⟨h.1, hcur, hinc, ?_, fun ha => (h.2.ali ha).mono hb, fun _ => h.1⟩
      intro hs; exact absurd (h.1.symm.trans hs) nofun

theorem wp_ls3v1Loop {b1 b2 : Fl} {fuel : ℕ} {disp : Vec D} {bd : Prop} (ho : C.oof) (hbd : ¬ bd) (h : Sep B C A s g) :
    (ls3v1Loop B b1 b2 fuel disp s).wp C (fun t g' => Cnt bd (Sep B C A t g') g.c 0 0 g') g := by
  induction fuel generalizing disp s g with
  | zero =>
    unfold ls3v1Loop
    split
    · exact fun _ => ho
    · exact ⟨h, by simp, fun hb => absurd hb hbd⟩
  | succ fuel ih =>
    unfold ls3v1Loop
    split
    · rw [Prog.wp_bind']
      refine Yields.wp (P := fun _ => True) (by yields) fun rows _ => ?_
      rw [Prog.wp_bind']
      refine (Yields.repairRows (.inl rfl)).wp fun rows hG => ?_
      rw [Prog.wp_bind']
      refine wp_evalRows hG (h.2.inc.cov) fun r g' _ hb hr hc hcount => ?_
      refine wp_then (ih (h.pick hb hr hc)) ?_
      rintro t g'' ⟨k1, k2, k3⟩
      exact ⟨k1, by omega, fun hb => absurd hb hbd⟩
    · exact ⟨h, by simp, fun hb => absurd hb hbd⟩

theorem wp_ls3v1 {fuel : ℕ} {b1 b2 : Fl} {bd : Prop} (ho : C.oof) (hbd : ¬ bd) (h : Sep B C A s g) :
    (ls3v1 B fuel b1 b2 s).wp C (fun t g' => Cnt bd (Sep B C A t g') g.c 0 0 g') g :=
  wp_ls3v1Loop ho hbd (h.congr rfl rfl rfl rfl fun _ => rfl)

/-! #### Calls of the searches -/

/-- The searches that keep solution and fitness together if repair is regular. -/
def Search.tidy : Search → Bool
  | .ls1 | .ls2 | .ls3v1 _ => true
  | _ => false

/-- The smallest number of evaluations of a search. -/
def Search.least (D : ℕ) (k : Search) : ℕ := if k.bounded then D else 0

theorem wp_run {b1 b2 : Fl} {k : Search} {bd : Prop} (hA : A → Laws B C ∧ k.tidy = true) (hk : k.bounded = true ∨ C.oof ∧ ¬ bd) (h : Sep B C A s g) :
    (k.run B b1 b2 s).wp C (fun t g' => Cnt bd (Sep B C A t g') g.c (k.least D) (4 * D) g') g := by
  cases k with
  | ls1 =>
    refine wp_then (wp_ls1 (bd := bd) h.2 fun ha => (hA ha).1) ?_
    rintro t g' ⟨h1, h2, h3⟩
    exact ⟨⟨h1.sep trivial, h1⟩, by simpa [Search.least, Search.bounded] using h2, fun hb => by have := h3 hb; omega⟩
  | ls1v1 =>
    refine wp_then (wp_ls1v1 (bd := bd) (fun ha => by have := (hA ha).2; cases this) h) ?_
    rintro t g' ⟨h1, h2, h3⟩
    exact ⟨h1, by simpa [Search.least, Search.bounded] using h2, fun hb => by have := h3 hb; omega⟩
  | ls2 =>
    refine wp_then (wp_ls2 (bd := bd) h) ?_
    rintro t g' ⟨h1, h2, h3⟩
    exact ⟨h1, by simpa [Search.least, Search.bounded] using h2, fun hb => by have := h3 hb; omega⟩
  | ls3 =>
    refine wp_then (wp_ls3 (bd := bd) (fun ha => by have := (hA ha).2; cases this) h) ?_
    rintro t g' ⟨h1, h2, h3⟩
    exact ⟨h1, by simp only [Search.least, Search.bounded, if_true]; omega, h3⟩
  | ls3v1 fuel =>
    rcases hk with hk | ⟨ho, hbd⟩
    · cases hk
    refine wp_then (wp_ls3v1 (bd := bd) ho hbd h) ?_
    rintro t g' ⟨h1, h2, h3⟩
    exact ⟨h1, by simpa [Search.least, Search.bounded] using h2, fun hb => absurd hb hbd⟩

/-- Are the loops of all searches bounded? -/
def Par.bounded (p : Par) : Bool := p.ls.all Search.bounded

/-- The smallest number of evaluations of a call of a search. -/
def Par.least (D : ℕ) (p : Par) : ℕ := if p.bounded then D else 0

/-- The conditions on the searches. -/
structure Fine (B : Box D) (C : Ctx (Vec D)) (A : Prop) (p : Par) : Prop where
  tidy : A → Laws B C ∧ ∀ k ∈ p.ls, k.tidy = true
  oof : p.bounded = true ∨ C.oof

theorem wp_search {b1 b2 : Fl} {p : Par} (hp : Fine B C A p) {k : Search} (hk : k ∈ p.ls) (h : Sep B C A s g) :
    (k.run B b1 b2 s).wp C (fun t g' => Cnt (p.bounded = true) (Sep B C A t g') g.c (p.least D) (4 * D) g') g := by
  refine wp_then (wp_run (bd := p.bounded = true) (fun ha => ⟨(hp.tidy ha).1, (hp.tidy ha).2 k hk⟩) ?_ h) ?_
  · cases hb : k.bounded with
    | true => exact .inl rfl
    | false =>
      have hn : ¬ p.bounded = true := fun hp => by
        rw [List.all_eq_true.1 hp k hk] at hb; cases hb
      exact .inr ⟨hp.oof.resolve_left hn, hn⟩
  · rintro t g' ⟨h1, h2, h3⟩
    refine ⟨h1, ?_, h3⟩
    have : p.least D ≤ k.least D := by
      unfold Par.least Search.least
      split
      · rename_i hb; rw [if_pos (List.all_eq_true.1 hb k hk)]
      · exact Nat.zero_le _
    omega

theorem wp_runLS {b1 b2 : Fl} {n : ℕ} {p : Par} (hp : Fine B C A p) {k : Search} (hk : k ∈ p.ls) (h : Sep B C A s g) :
    (runLS B b1 b2 n k s).wp C (fun t g' => Cnt (p.bounded = true) (Sep B C A t g') g.c (n * p.least D) (n * (4 * D)) g') g := by
  refine wp_forFin_cnt (bd := p.bounded = true) (lo := p.least D) (hi := 4 * D) (J := fun t g' => Sep B C A t g') h (fun i t g' ht => ?_) fun _ _ h => h
  rw [Prog.wp_bind']
  refine wp_then (wp_search hp hk ht) ?_
  rintro r g'' ⟨h1, h2, h3⟩
  exact ⟨h1.congr rfl rfl rfl rfl fun _ => rfl, h2, h3⟩

theorem wp_tests {p : Par} (hp : Fine B C A p) {k : Search × ℕ} (hk : k.1 ∈ p.ls) (h : Sep B C A s g) :
    (forFin p.tests (fun _ s => do
      let s ← k.1.run B (Fl.ofNat 10) (Fl.ofNat 1) s
      if 3 ≤ k.2 then .throw .indexError else return s) s : Prog (Vec D) (LS D)).wp C
        (fun t g' => Cnt (p.bounded = true) (Sep B C A t g') g.c (p.tests * p.least D) (p.tests * (4 * D)) g') g := by
  refine wp_forFin_cnt (bd := p.bounded = true) (lo := p.least D) (hi := 4 * D) (J := fun t g' => Sep B C A t g') h (fun i t g' ht => ?_) fun _ _ h => h
  rw [Prog.wp_bind']
  refine wp_then (wp_search hp hk ht) fun r g'' hr => ?_
  split
  · exact nofun
  · exact hr

theorem wp_gradeList {p : Par} (hp : Fine B C A p) (l : List (Search × ℕ)) (hl : ∀ k ∈ l, k.1 ∈ p.ls) (h : Sep B C A s g) :
    (forList l (fun k s => forFin p.tests (fun _ s => do
      let s ← k.1.run B (Fl.ofNat 10) (Fl.ofNat 1) s
      if 3 ≤ k.2 then .throw .indexError else return s) s) s : Prog (Vec D) (LS D)).wp C
        (fun t g' => Cnt (p.bounded = true) (Sep B C A t g') g.c (l.length * (p.tests * p.least D)) (l.length * (p.tests * (4 * D))) g') g := by
  induction l generalizing s g with
  | nil => exact ⟨h, by simp, fun _ => by simp⟩
  | cons k l ih =>
    rw [forList, Prog.wp_bind]
    refine wp_then (wp_tests hp (hl k (by simp)) h) ?_
    rintro t g' ⟨h1, h2, h3⟩
    refine wp_then (ih (fun k hk => hl k (by simp [hk])) h1) ?_
    rintro t' g'' ⟨k1, k2, k3⟩
    refine ⟨k1, ?_, fun hb => ?_⟩
    · rw [List.length_cons, Nat.add_mul]; omega
    · have := h3 hb; have := k3 hb; rw [List.length_cons, Nat.add_mul]; omega

/-- The number of calls of searches for one individual. -/
def Par.calls (p : Par) : ℕ := p.ls.length * p.tests + p.searches

theorem wp_improve {p : Par} (hp : Fine B C A p) (h : Sep B C A s g) :
    (improve B p s).wp C (fun t g' => Cnt (p.bounded = true) (Sep B C A t g') g.c (p.calls * p.least D) (p.calls * (4 * D)) g') g := by
  unfold improve grade
  rw [Prog.wp_bind']
  refine wp_then (wp_gradeList hp _ (fun k hk => ?_) h) ?_
  · obtain ⟨k, i⟩ := k
    exact List.fst_mem_of_mem_zipIdx hk
  · rintro t g' ⟨h1, h2, h3⟩
    split
    · exact nofun
    · rename_i k hk
      refine wp_then (wp_runLS hp (List.mem_of_getLast? hk) (h1.congr rfl rfl rfl rfl fun _ => rfl)) ?_
      rintro t' g'' ⟨k1, k2, k3⟩
      rw [List.length_zipIdx] at h2 h3
      refine ⟨k1, ?_, fun hb => ?_⟩
      · simp only [Par.calls, Nat.add_mul, Nat.mul_assoc]; omega
      · have := h3 hb; have := k3 hb
        simp only [Par.calls, Nat.add_mul, Nat.mul_assoc]; omega

/-- Invariant of the population. -/
def Pop (C : Ctx (Vec D)) (A : Prop) (s : St D N) (b : Fl) : Prop :=
  (∀ i, ∃ y, C.Fit b y (s.fit i)) ∧ (A → ∀ i, C.Fit b (s.pop i) (s.fit i))

omit [Arith] in
theorem Pop.mono {s : St D N} {b b' : Fl} (h : Pop C A s b) (hb : Below b' b) : Pop C A s b' :=
  ⟨fun i => (h.1 i).imp fun _ hz => hz.mono hb, fun ha i => (h.2 ha i).mono hb⟩

/-- The individuals before `k` that are enabled. -/
def St.upTo (s : St D N) (k : ℕ) : Finset (Fin N) := Finset.univ.filter fun i => i.1 < k ∧ s.enable i = true

omit [Arith] in
theorem St.upTo_succ (s : St D N) (i : Fin N) :
    (s.upTo (i + 1)).card = (s.upTo i).card + if s.enable i then 1 else 0 := by
  unfold St.upTo
  split
  · rename_i h
    have : (Finset.univ.filter fun j : Fin N => j.1 < i + 1 ∧ s.enable j = true) =
        insert i (Finset.univ.filter fun j : Fin N => j.1 < i ∧ s.enable j = true) := by
      ext j
      simp only [Finset.mem_filter, Finset.mem_univ, true_and, Finset.mem_insert]
      constructor
      · rintro ⟨h1, h2⟩
        by_cases e : j = i
        · exact .inl e
        · exact .inr ⟨by have : j.1 ≠ i.1 := fun h => e (Fin.ext h); omega, h2⟩
      · rintro (rfl | ⟨h1, h2⟩)
        · exact ⟨by omega, h⟩
        · exact ⟨by omega, h2⟩
    rw [this, Finset.card_insert_of_notMem (by simp)]
  · rename_i h
    refine (congrArg Finset.card (Finset.ext fun j => ?_)).trans (Nat.add_zero _).symm
    simp only [Finset.mem_filter, Finset.mem_univ, true_and]
    refine ⟨fun ⟨h1, h2⟩ => ⟨?_, h2⟩, fun ⟨h1, h2⟩ => ⟨by omega, h2⟩⟩
    have : j.1 ≠ i.1 := fun e => h (Fin.ext e ▸ h2)
    omega

theorem wp_turn {p : Par} (hp : Fine B C A p) {i : Fin N} {a : St D N × Vec D × Fl} (hP : Pop C A a.1 g.b) (hI : Inc C a.2.1 a.2.2 g) :
    (turn B p i a).wp C (fun t g' => Pop C A t.1 g'.b ∧ Inc C t.2.1 t.2.2 g' ∧ t.1.enable = Function.update a.1.enable i false ∧
      g.c + (if a.1.enable i then 1 else 0) * (p.calls * p.least D) ≤ g'.c ∧ (p.bounded = true → g'.c ≤ g.c + p.calls * (4 * D))) g := by
  unfold turn
  split
  · rw [Prog.wp_bind']
    have hS : Sep B C A ⟨a.1.pop i, a.1.fit i, a.2.1, a.2.2, false, a.1.imp i, a.1.sr i, Fl.ofNat 0⟩ g :=
      ⟨rfl, hP.1 i, by simpa [LS.best] using hI, nofun, fun ha => hP.2 ha i, fun _ => rfl⟩
    refine wp_then (Prog.wp_below (wp_improve hp hS)) ?_
    rintro r g' ⟨⟨h1, h2, h3⟩, hb⟩
    refine ⟨⟨fun j => ?_, fun ha j => ?_⟩, h1.2.inc, rfl, by simpa using h2, h3⟩
    · by_cases e : j = i
      · subst e; simpa using h1.2.cur
      · simpa [Function.update_of_ne e] using (hP.mono hb).1 j
    · by_cases e : j = i
      · subst e; simpa using h1.2.ali ha
      · simpa [Function.update_of_ne e] using (hP.mono hb).2 ha j
  · rename_i he
    refine ⟨hP, hI, ?_, by simp, fun _ => by omega⟩
    funext j
    by_cases e : j = i
    · subst e; simpa using he
    · simp [Function.update_of_ne e]

theorem wp_turns {p : Par} (hp : Fine B C A p) {s : St D N} {xb : Vec D} {fxb : Fl} (hP : Pop C A s g.b) (hI : Inc C xb fxb g) :
    (forFin N (turn B p) (s, xb, fxb)).wp C (fun t g' => Pop C A t.1 g'.b ∧ Inc C t.2.1 t.2.2 g' ∧
      g.c + (s.upTo N).card * (p.calls * p.least D) ≤ g'.c ∧ (p.bounded = true → g'.c ≤ g.c + N * (p.calls * (4 * D)))) g := by
  refine wp_then (wp_forFin (fun k t g' => (Pop C A t.1 g'.b ∧ Inc C t.2.1 t.2.2 g' ∧
      g.c + (s.upTo k).card * (p.calls * p.least D) ≤ g'.c ∧ (p.bounded = true → g'.c ≤ g.c + k * (p.calls * (4 * D)))) ∧
      ∀ j : Fin N, k ≤ j → t.1.enable j = s.enable j) ⟨⟨hP, hI, by simp [St.upTo], fun _ => by simp⟩, fun _ _ => rfl⟩ ?_) fun _ _ h => h.1
  rintro i t g' ⟨⟨h1, h2, h3, h4⟩, h5⟩
  refine wp_then (wp_turn hp h1 h2) ?_
  rintro t' g'' ⟨k1, k2, k3, k4, k5⟩
  refine ⟨⟨k1, k2, ?_, fun hb => ?_⟩, fun j hj => ?_⟩
  · rw [St.upTo_succ, Nat.add_mul, ← h5 i (le_refl _)]; omega
  · have := h4 hb; have := k5 hb; rw [Nat.add_mul]; omega
  · have hne : j ≠ i := fun e => by subst e; omega
    rw [k3, Function.update_of_ne hne]
    exact h5 j (by omega)

/-- The assumptions of the algorithm: unless there are no searches around the best solution, either nothing is claimed about how
solutions and fitness values belong together, or repair is regular and no fitness value is NaN. -/
def Reg (B : Box D) (p : Par) (C : Ctx (Vec D)) : Prop := p.best = 0 ∨ Untied C ∨ Laws B C

theorem wp_polish {n : ℕ} {a : Vec D × Fl} (h : n = 0 ∨ Untied C ∨ Laws B C) (hI : Inc C a.1 a.2 g) :
    (polish B n a).wp C (fun t g' => Cnt True (Inc C t.1 t.2 g') g.c (n * D) (n * (2 * D)) g') g := by
  refine wp_forFin_cnt (bd := True) (lo := D) (hi := 2 * D) (J := fun (t : Vec D × Fl) g' => Inc C t.1 t.2 g') hI (fun i t g' ht => ?_) fun _ _ h => h
  have hu : Untied C ∨ Laws B C := h.resolve_left fun e => by have := i.2; omega
  rw [Prog.wp_bind']
  have hO : Ok B C False False ⟨t.1, t.2, t.1, t.2, true, false, fun j => (B.hi j - B.lo j) / Fl.ofNat 10, Fl.ofNat 0⟩ g' :=
    ⟨⟨_, ht.toFit⟩, by simpa [LS.best] using ht, fun _ => hu.imp id fun hl => ⟨rfl, hl⟩, nofun, nofun⟩
  refine wp_then (wp_ls1 (bd := True) hO nofun) ?_
  rintro r g'' ⟨h1, h2, h3⟩
  exact ⟨h1.inc, h2, h3⟩

/-- Number of evaluations. -/
def cost (D N : ℕ) (p : Par) : Cost :=
  ⟨N, min p.enabled N * (p.calls * p.least D) + p.best * D,
    if p.bounded then some (N * (p.calls * (4 * D)) + p.best * (2 * D)) else none⟩

/-- Invariant of a run. -/
def Inv (A : Prop) (p : Par) (C : Ctx (Vec D)) (s : St D N) (b : Fl) : Prop := Pop C A s b ∧ min p.enabled N ≤ (s.upTo N).card

theorem wp_iter {p : Par} (hp : Fine B C A p) (hr : Reg B p C) {s : St D N} {xb : Vec D} {fxb : Fl} (hP : Inv A p C s g.b)
    (hI : Inc C xb fxb g) :
    (iter B p s xb fxb).wp C (fun t g' => Inv A p C t.1 g'.b ∧ Inc C t.2.1 t.2.2 g' ∧ (cost D N p).Ok g.c g'.c) g := by
  unfold iter
  rw [Prog.wp_bind']
  refine wp_then (wp_turns hp hP.1 hI) ?_
  rintro a g1 ⟨h1, h2, h3, h4⟩
  rw [Prog.wp_bind']
  refine wp_then (Prog.wp_below (wp_polish hr h2)) ?_
  rintro b g2 ⟨⟨k1, k2, k3⟩, hb⟩
  rw [Prog.wp_bind']
  refine Yields.sortIdx.wp fun o ho => ?_
  refine ⟨⟨h1.mono hb, ?_⟩, k1, ?_, ?_⟩
  · let f : Fin (min p.enabled N) → Fin N := fun k => o ⟨k, by have := k.2; omega⟩
    have hf : Function.Injective f := fun k l h => by
      have := ho.1.1 h
      exact Fin.ext (by simpa using this)
    calc min p.enabled N = (Finset.univ.image f).card := by rw [Finset.card_image_of_injective _ hf]; simp
      _ ≤ _ := Finset.card_le_card fun i hi => by
        obtain ⟨k, -, rfl⟩ := Finset.mem_image.1 hi
        have := k.2
        simp only [St.upTo, Finset.mem_filter, Finset.mem_univ, true_and, Bool.or_eq_true, List.any_eq_true, decide_eq_true_eq]
        exact ⟨(f k).2, .inr ⟨⟨k, by omega⟩, List.mem_finRange _, by simp only; omega, rfl⟩⟩
  · have := Nat.mul_le_mul_right (p.calls * p.least D) hP.2
    simp only [cost]; omega
  · intro h he
    simp only [cost] at he
    split at he
    · rename_i hbd
      have := h4 hbd
      have := k3 trivial
      cases he
      omega
    · cases he

theorem ok_of (hr : Reg B p C) (hp : Fine B C A p) (hG : ∀ x, B.Mem x → C.G x) :
    AlgOKW (alg B N p) C (cost D N p) A (fun s b => Inv A p C s b) := by
  refine ⟨fun ha s b h => forall₂_ofFn (h.1.2 ha), fun g hg => ?_, ?_⟩
  · simp only [alg, init, Prog.wp_bind']
    refine wp_initArr hG hg fun r g' _ _ h3 h4 h5 => ⟨⟨⟨fun i => ⟨_, h3 i⟩, fun _ => h3⟩, ?_⟩, forall₂_ofFn h3, h4, h5⟩
    simp [St.upTo]
  · intro s xb fxb g hI hF hc
    exact wp_then (wp_iter hp hr hI ⟨hF, hc⟩) fun t g' h => ⟨h.1, h.2.1.fit, h.2.1.eq, h.2.2⟩

/-- The obligations of MultipleTrajectorySearch and MultipleTrajectorySearchV1, for all choices of searches. -/
theorem verified (B : Box D) (N : ℕ) (p : Par) : VerifiedIf (Reg B p) (alg B N p) B.Mem true p.bounded (cost D N p) False :=
  ⟨_, fun _ hC hG _ ho => ok_of hC ⟨False.elim, (Bool.eq_false_or_eq_true p.bounded).imp id ho⟩ hG⟩

/-- With the searches `mts_ls1`, `mts_ls2` and `mts_ls3v1`, the population shows the fitness values of its solutions. -/
theorem verifiedTidy (B : Box D) (N : ℕ) (p : Par) (hp : ∀ k ∈ p.ls, k.tidy = true) :
    VerifiedIf (Laws B) (alg B N p) B.Mem true p.bounded (cost D N p) True :=
  ⟨_, fun _ hC hG _ ho => ok_of (.inr (.inr hC)) ⟨fun _ => ⟨hC, hp⟩, (Bool.eq_false_or_eq_true p.bounded).imp id ho⟩ hG⟩

/-- Repair leaves the coordinates that are within the bounds as they are. -/
def Keeps (B : Box D) (env : Env (Vec D)) : Prop := ∀ rng k x i, ¬ x i < B.lo i → ¬ B.hi i < x i → env.repairFn rng k x i = x i

theorem metBy_laws {env : Env (Vec D)} (hn : NoNaN env) (hk : Keeps B env) (trk : Prop) : MetBy (Laws B) env trk B.NotOut := fun C hF _ _ hR _ =>
  ⟨fun x v h => by
    rcases ((hF x v h).sharp trivial).2 with rfl | ⟨k, r, hr, rfl⟩
    · simp
    · rw [ne_eq, OptType.mul_eq_nan]; exact hn k x r hr, fun x v h => ((hF x v h).sharp trivial).1, fun z y h i h1 h2 => by
    obtain ⟨rng, k, rfl⟩ := hR _ _ h
    exact hk rng k z i h1 h2⟩

theorem metBy_reg {env : Env (Vec D)} (hn : NoNaN env) (hk : Keeps B env) (p : Par) (trk : Prop) : MetBy (Reg B p) env trk B.NotOut :=
  fun C hF ht hG hR hU => .inr (.inr (metBy_laws hn hk trk C hF ht hG hR hU))

theorem metBy_reg_untied (env : Env (Vec D)) (p : Par) (trk : Prop) {P : Vec D → Prop} : MetBy (Reg B p) env trk P False :=
  fun _ _ _ _ _ hU => .inr (.inl (hU id))

theorem metBy_reg_zero (env : Env (Vec D)) {p : Par} (h : p.best = 0) (trk : Prop) (P : Vec D → Prop := fun _ => True) (sh : Prop := True) :
    MetBy (Reg B p) env trk P sh := fun _ _ _ _ _ _ => .inl h

/-- All repair functions of the library keep the coordinates that are within the bounds. -/
theorem keeps_builtin (B : Box D) (rng : Rng) (k : ℕ) (x : Vec D) (i : Fin D) (h1 : ¬ x i < B.lo i) (h2 : ¬ B.hi i < x i) :
    Repair.limit B x i = x i ∧ Repair.limitInverse B x i = x i ∧ Repair.wang B x i = x i ∧ Repair.rand B rng k x i = x i ∧
      Repair.reflect B x i = x i := by
  refine ⟨Repair.clip_id (B.le i) h1 h2, ?_, ?_, ?_, ?_⟩
  · rw [Repair.limitInverse_eq]; exact Repair.twoStep_id h1 h2
  · rw [Repair.wang_eq]; exact Repair.twoStep_id h1 h2
  · rw [Repair.rand_eq]; exact Repair.twoStep_id h1 h2
  · simp [Repair.reflect, Repair.setWhere, h1, h2]

/-- **C74.** Multiple trajectory search returns the fitness of the solution it returns, if no objective value is NaN and repair gives
points within the bounds and leaves coordinates within the bounds alone. -/
theorem C74_solution_fitness (B : Box D) (N : ℕ) (p : Par) (env : Env (Vec D)) (hn : NoNaN env)
    (hr : ∀ rng k x, B.NotOut (env.repairFn rng k x)) (hk : Keeps B env) (main : Bool) (ncb fuel : ℕ) (out : RunOut (Vec D)) (x : Vec D) (f : Fl)
    (hrun : ((alg B N p).exec env main ncb fuel).1 = .ok out) (hres : out.result = some (x, f)) :
    ((x, .ok f) ∈ ((alg B N p).exec env main ncb fuel).2.calls ∨ f = env.opt.mul .pinf) ∧
      BestOf env.opt (values ((alg B N p).exec env main ncb fuel).2.calls) f :=
  ⟨C27_solution_fitness (verified B N p) env (metBy_reg hn hk p _) main ncb fuel out x f hrun hres (fun _ h => h.notOut) hr,
    (C26_returned_is_best (verified B N p) env (metBy_reg hn hk p _) hn main ncb fuel out x f hrun hres (fun _ h => h.notOut) hr).2⟩

/-! ### C75: which individuals are enabled -/

/-- Exactly `min num_enabled N` individuals are enabled, and none of the others has a lower grade than one of them. -/
def LowestEnabled (p : Par) (s : St D N) : Prop :=
  (Finset.univ.filter fun i => s.enable i = true).card = min p.enabled N ∧
    ∀ i j, s.enable i = true → s.enable j = false → leNanLast (s.grades i) (s.grades j)

theorem turn_enable {i : Fin N} {a : St D N × Vec D × Fl} :
    (turn B p i a).wp Ctx.any (fun t _ => t.1.enable = Function.update a.1.enable i false) g := by
  unfold turn
  split
  · rw [Prog.wp_bind']
    exact Prog.wp_any _ (fun _ _ => rfl) _
  · rename_i he
    change a.1.enable = _
    funext j
    by_cases e : j = i
    · subst e; simpa using he
    · simp [Function.update_of_ne e]

theorem turns_enable {a : St D N × Vec D × Fl} : (forFin N (turn B p) a).wp Ctx.any (fun t _ => ∀ j, t.1.enable j = false) g := by
  refine wp_then (wp_forFin (fun k t _ => ∀ j : Fin N, j < k → t.1.enable j = false) (fun j h => absurd h (Nat.not_lt_zero _)) fun i t g' h => ?_)
    fun t g' h j => h j j.2
  refine wp_then turn_enable fun t' g'' e j hj => ?_
  rw [e]
  by_cases e : j = i
  · subst e; simp
  · rw [Function.update_of_ne e]; exact h j (by have : j.1 ≠ i.1 := fun h => e (Fin.ext h); omega)

/-- **C75, what holds.** In every state after the first iteration of every run, exactly `num_enabled` individuals (or all, if there are fewer)
are enabled, and these are the ones with the *lowest* grades. -/
theorem C75_enabled_partial (B : Box D) (N : ℕ) (p : Par) (env : Env (Vec D)) (ncb : ℕ) {hist : List (St D N × Vec D × Fl)} {w : World (Vec D)}
    (ht : (alg B N p).Trace env ncb hist w) {pre rest : List (St D N × Vec D × Fl)} {r : St D N × Vec D × Fl} (he : hist = pre ++ r :: rest)
    (hr : rest ≠ []) : LowestEnabled p r.1 := by
  refine Alg.Trace.after (A := alg B N p) (P := fun n (s : St D N) => 0 < n → LowestEnabled p s) ht (fun w w' a _ h => absurd h (by omega)) ?_ he
    (List.length_pos_of_ne_nil hr)
  intro n s xb fxb _ w1 w2 t ht _
  revert ht
  refine fun ht => Prog.wp_any_run (p := iter B p s xb fxb) (P := fun t => LowestEnabled p t.1) (fun g => ?_) ht
  unfold iter
  rw [Prog.wp_bind']
  refine wp_then turns_enable fun a g1 ha => ?_
  rw [Prog.wp_bind']
  refine Prog.wp_any _ (fun b g2 => ?_) _
  rw [Prog.wp_bind']
  refine Yields.sortIdx.wp fun o ho => ?_
  have hen : ∀ i, ((a.1.enable i || (List.finRange N).any fun k => decide ((k : ℕ) < p.enabled ∧ o k = i)) = true) ↔ ∃ k : Fin N, k.1 < p.enabled ∧ o k = i := by
    intro i; simp [ha i]
  refine ⟨?_, fun i j hi hj => ?_⟩
  · let f : Fin (min p.enabled N) → Fin N := fun k => o ⟨k, by have := k.2; omega⟩
    have hf : Function.Injective f := fun k l h => by
      have := ho.1.1 h
      exact Fin.ext (by simpa using this)
    calc _ = (Finset.univ.image f).card := by
          congr 1
          ext i
          simp only [Finset.mem_filter, Finset.mem_univ, true_and, Finset.mem_image]
          rw [hen]
          constructor
          · rintro ⟨k, hk, rfl⟩; exact ⟨⟨k, by have := k.2; omega⟩, rfl⟩
          · rintro ⟨k, rfl⟩; exact ⟨⟨k, by have := k.2; omega⟩, by have := k.2; simp only; omega, rfl⟩
      _ = min p.enabled N := by rw [Finset.card_image_of_injective _ hf]; simp
  · obtain ⟨k, hk, rfl⟩ := (hen i).1 hi
    obtain ⟨l, rfl⟩ := ho.1.2 j
    refine ho.2 k l ?_
    by_contra hlt
    have hlt : l ≤ k := not_lt.1 hlt
    have : (a.1.enable (o l) || (List.finRange N).any fun k => decide ((k : ℕ) < p.enabled ∧ o k = o l)) = true :=
      (hen (o l)).2 ⟨l, by have : l.1 ≤ k.1 := hlt; omega, rfl⟩
    rw [show (a.1.enable (o l) || (List.finRange N).any fun k => decide ((k : ℕ) < p.enabled ∧ o k = o l)) = false from hj] at this
    cases this

/-! ### Counterexamples and examples -/

/-- Some parameters. -/
def Ex.par (ls : List Search) : Par := ⟨1, 1, 1, 1, .fin 10, .fin 1, ls⟩

/-- The objective is undefined below `-3/2`. -/
def Ex.holes : Env (Vec 1) := { NiaPy.Ex.env2 1 with obj := fun _ x => .ok (if x 0 < .fin (-3 / 2) then .nan else x 0) }

omit [Arith] in
/-- C74 without the assumption that no objective value is NaN is false: after a NaN, the solution returned is the one that was tried,
the fitness is that of the solution before. -/
theorem C74_nan_false : (@alg NiaPy.Ex.arith 1 (NiaPy.Ex.box 1) 1 (Ex.par [.ls2])).ReturnsWrong Ex.holes :=
  .of (fuel := 5) (by decide +kernel)

omit [Arith] in
/-- C28 is false of MultipleTrajectorySearch: `mts_ls3` returns a solution with the fitness of an earlier one. -/
theorem C28_mts_false : ¬ ∀ e ∈ ((@alg NiaPy.Ex.arith 2 (NiaPy.Ex.box 2) 2 (Ex.par [.ls3])).exec (NiaPy.Ex.env2 1) true 1 9).2.events,
      EventAligned (FitOK .minimization ((@alg NiaPy.Ex.arith 2 (NiaPy.Ex.box 2) 2 (Ex.par [.ls3])).exec (NiaPy.Ex.env2 1) true 1 9).2.calls) True e.2 :=
  not_aligned' (by decide +kernel)

omit [Arith] in
/-- C28 is false of MultipleTrajectorySearchV1: `mts_ls1v1` returns a new best solution with the fitness of an earlier one. -/
theorem C28_mtsv1_false : ¬ ∀ e ∈ ((@alg NiaPy.Ex.arith 1 (NiaPy.Ex.box 1) 1 (parV1 1 0 1 (.fin 10) (.fin 1))).exec (NiaPy.Ex.env2 3) true 1 9).2.events,
      EventAligned (FitOK .minimization ((@alg NiaPy.Ex.arith 1 (NiaPy.Ex.box 1) 1 (parV1 1 0 1 (.fin 10) (.fin 1))).exec (NiaPy.Ex.env2 3) true 1 9).2.calls) True e.2 :=
  not_aligned' (by decide +kernel)

omit [Arith] in
/-- **C75 is false:** a run that ends with an individual enabled while another one, with a higher grade (and a better fitness), is not. -/
theorem C75_best_false : ∃ hist w r, (@alg NiaPy.Ex.arith 1 (NiaPy.Ex.box 1) 3 (Ex.par [.ls1, .ls2, .ls3])).Trace NiaPy.Ex.env2 0 (r :: hist) w ∧ hist ≠ [] ∧
    ∃ i j : Fin 3, (r.1 : St 1 3).enable i = true ∧ (r.1 : St 1 3).enable j = false ∧ (r.1 : St 1 3).grades i < (r.1 : St 1 3).grades j ∧
      (r.1 : St 1 3).fit j < (r.1 : St 1 3).fit i := by
  have h : ∃ r ∈ (match ((@alg NiaPy.Ex.arith 1 (NiaPy.Ex.box 1) 3 (Ex.par [.ls1, .ls2, .ls3])).execBody NiaPy.Ex.env2 0 5).1 with
    | .ok r => some r
    | .error _ => none), ∃ i j : Fin 3, (r.1 : St 1 3).enable i = true ∧ (r.1 : St 1 3).enable j = false ∧ (r.1 : St 1 3).grades i < (r.1 : St 1 3).grades j ∧
      (r.1 : St 1 3).fit j < (r.1 : St 1 3).fit i := by decide +kernel
  obtain ⟨r, hr, h⟩ := h
  split at hr
  · rename_i r' he
    cases hr
    obtain ⟨hist, w, ht, -⟩ := body_trace he
    refine ⟨hist, w, r, ht, ?_, h⟩
    rintro rfl
    obtain ⟨i, j, -, hj, -⟩ := h
    have := Alg.Trace.after (P := fun n (s : St 1 3) => n = 0 → ∀ i, s.enable i = true) ht (fun w w' a ha _ => ?_) (fun n s xb fxb _ _ _ _ _ h => by omega)
      (pre := []) rfl rfl j
    · rw [this] at hj; cases hj
    · refine Prog.wp_any_run (p := @init NiaPy.Ex.arith 1 (NiaPy.Ex.box 1) 3) (P := fun a : St 1 3 => ∀ i, a.enable i = true) (fun g => ?_) ha
      simp only [init, Prog.wp_bind']
      exact Prog.wp_any _ (fun _ _ _ => rfl) _
  · cases hr

/-- With the searches `mts_ls1`, `mts_ls2` and `mts_ls3v1`, the individuals shown to callbacks have the fitness shown. -/
theorem C74_population (B : Box D) (N : ℕ) (p : Par) (hp : ∀ k ∈ p.ls, k.tidy = true) (env : Env (Vec D)) (hn : NoNaN env)
    (hr : ∀ rng k x, B.NotOut (env.repairFn rng k x)) (hk : Keeps B env) (main : Bool) (ncb fuel : ℕ) :
    ∀ e ∈ ((alg B N p).exec env main ncb fuel).2.events, EventAligned (FitOK env.opt ((alg B N p).exec env main ncb fuel).2.calls) True e.2 :=
  (C28_callback_log (verifiedTidy B N p hp) env True (metBy_laws hn hk True) main ncb fuel (fun _ h => h.notOut) hr).1

theorem Ex.env2_keeps {D : ℕ} (mi : ℕ) (me : Option ℕ) : Keeps (NiaPy.Ex.box D) (NiaPy.Ex.env2 (D := D) mi me) := fun _ _ x i h1 h2 => by
  change ¬ x i < .fin (-2) at h1
  change ¬ .fin 2 < x i at h2
  change NiaPy.Ex.clip1 (x i) = x i
  cases hx : x i <;> simp_all [NiaPy.Ex.clip1] <;> grind

theorem Ex.env2_inside {D : ℕ} (mi : ℕ) (me : Option ℕ) (rng : Rng) (k : ℕ) (x : Vec D) :
    (NiaPy.Ex.box D).NotOut ((NiaPy.Ex.env2 (D := D) mi me).repairFn rng k x) := fun i => by
  change ¬ NiaPy.Ex.clip1 (x i) < .fin (-2) ∧ ¬ .fin 2 < NiaPy.Ex.clip1 (x i)
  cases x i <;> simp [NiaPy.Ex.clip1] <;> grind

/-- The hypotheses of C74 hold of completed runs with all the searches of the library. -/
example : NoNaN (NiaPy.Ex.env2 (D := 1)) ∧ (∀ rng k x, (NiaPy.Ex.box 1).NotOut ((NiaPy.Ex.env2 (D := 1)).repairFn rng k x)) ∧
    Keeps (NiaPy.Ex.box 1) NiaPy.Ex.env2 ∧
    (@alg NiaPy.Ex.arith 1 (NiaPy.Ex.box 1) 2 (Ex.par [.ls1, .ls2, .ls3])).okIters NiaPy.Ex.env2 1 5 = some 2 ∧
    (@alg NiaPy.Ex.arith 1 (NiaPy.Ex.box 1) 2 (Ex.par [.ls1, .ls2, .ls3v1 9])).okIters NiaPy.Ex.env2 1 5 = some 2 ∧
    (@alg NiaPy.Ex.arith 1 (NiaPy.Ex.box 1) 2 (parV1 1 1 1 (.fin 10) (.fin 1))).okIters NiaPy.Ex.env2 1 5 = some 2 :=
  ⟨Ex.env2_noNaN _ _, Ex.env2_inside _ _, Ex.env2_keeps _ _, by decide +kernel, by decide +kernel, by decide +kernel⟩

end NiaPy.MTS
