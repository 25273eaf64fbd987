import Verif.Ranks

/-!
# C98: moving the problem moves the search

The variables of a problem are replaced by others: coordinate `j` is multiplied by `s j > 0` and `c j` is added. Computed without rounding, algorithms that
form new points from differences of points then evaluate the transformed points.
-/

namespace NiaPy
variable {α β γ δ σ : Type} {D N : ℕ}

/-- The operations on floats are exact (rational, with the IEEE rules for infinities and NaN). Elementary functions, powers and remainders are arbitrary. -/
class ExactOps [Arith] : Prop where
  add : ∀ a b : Fl, a + b = Fl.addX a b
  sub : ∀ a b : Fl, a - b = Fl.addX a (-b)
  mul : ∀ a b : Fl, a * b = Fl.mulX a b
  div : ∀ a b : Fl, a / b = Fl.divX a b

instance (fn : Fn → Fl → Fl) : @ExactOps (exactArith fn) := letI := exactArith fn; ⟨fun _ _ => rfl, fun _ _ => rfl, fun _ _ => rfl, fun _ _ => rfl⟩

/-- `v ↦ s * v + c` on finite floats. -/
def Fl.aff (s c : ℚ) (v : Fl) : Fl := v.lift fun q => s * q + c

namespace Fl
variable {s c : ℚ}

@[simp] theorem aff_fin (q : ℚ) : aff s c (.fin q) = .fin (s * q + c) := rfl
@[simp] theorem aff_pinf : aff s c .pinf = .pinf := rfl
@[simp] theorem aff_ninf : aff s c .ninf = .ninf := rfl
@[simp] theorem aff_nan : aff s c .nan = .nan := rfl

theorem aff_id (v : Fl) : aff 1 0 v = v := by cases v <;> simp

theorem aff_gauge (hs : 0 < s) : Gauge (aff s c) := .lift fun a b h => by
  have := mul_lt_mul_of_pos_left h hs
  simpa using this

theorem aff_lt (hs : 0 < s) {a b : Fl} : aff s c a < aff s c b ↔ a < b := (aff_gauge hs).lt a b
theorem aff_le (hs : 0 < s) {a b : Fl} : aff s c a ≤ aff s c b ↔ a ≤ b := (aff_gauge hs).le a b
theorem aff_inj (hs : 0 < s) {a b : Fl} : aff s c a = aff s c b ↔ a = b := (aff_gauge hs).inj

theorem infOf_mul (hs : 0 < s) (q : ℚ) : infOf (s * q) = infOf q := by
  unfold infOf
  simp only [mul_pos_iff_of_pos_left hs, mul_neg_iff, hs, not_lt_of_gt hs, true_and, false_and, or_false]

theorem infOf_neg_mul (hs : 0 < s) (q : ℚ) : infOf (-(s * q)) = infOf (-q) := by rw [← mul_neg, infOf_mul hs]

section
variable [Arith] [ExactOps]

theorem aff_sub (a b : Fl) : aff s c a - aff s c b = aff s 0 (a - b) := by
  rw [ExactOps.sub, ExactOps.sub]
  cases a <;> cases b <;> simp [addX]
  ring

theorem aff_add (a d : Fl) : aff s c a + aff s 0 d = aff s c (a + d) := by
  rw [ExactOps.add, ExactOps.add]
  cases a <;> cases d <;> simp [addX]
  ring

theorem aff_add' (a d : Fl) : aff s 0 d + aff s c a = aff s c (d + a) := by
  rw [ExactOps.add, ExactOps.add]
  cases a <;> cases d <;> simp [addX]
  ring

theorem aff_sub' (a d : Fl) : aff s c a - aff s 0 d = aff s c (a - d) := by
  rw [ExactOps.sub, ExactOps.sub]
  cases a <;> cases d <;> simp [addX]
  ring

theorem shift_sub (a b : Fl) : aff 1 c a - aff 1 c b = a - b := by rw [aff_sub, aff_id]
theorem shift_add (a d : Fl) : aff 1 c a + d = aff 1 c (a + d) := by rw [← aff_add, aff_id]
theorem shift_add' (d a : Fl) : d + aff 1 c a = aff 1 c (d + a) := by rw [← aff_add', aff_id]
theorem shift_sub' (a d : Fl) : aff 1 c a - d = aff 1 c (a - d) := by rw [← aff_sub', aff_id]

theorem aff_mul (hs : 0 < s) (k d : Fl) : k * aff s 0 d = aff s 0 (k * d) := by
  rw [ExactOps.mul, ExactOps.mul]
  cases k with
  | fin k =>
    cases d <;> simp [mulX, infOf] <;> (try split_ifs) <;> (try simp) <;> try ring
  | pinf => cases d <;> simp [mulX, infOf_mul hs] <;> unfold infOf <;> split_ifs <;> rfl
  | ninf => cases d <;> simp [mulX, infOf_neg_mul hs] <;> unfold infOf <;> split_ifs <;> rfl
  | nan => cases d <;> rfl

theorem aff_mul' (hs : 0 < s) (d k : Fl) : aff s 0 d * k = aff s 0 (d * k) := by
  rw [ExactOps.mul, ExactOps.mul]
  cases k with
  | fin k =>
    cases d <;> simp [mulX, infOf] <;> (try split_ifs) <;> (try simp) <;> try ring
  | pinf => cases d <;> simp [mulX, infOf_mul hs] <;> unfold infOf <;> split_ifs <;> rfl
  | ninf => cases d <;> simp [mulX, infOf_neg_mul hs] <;> unfold infOf <;> split_ifs <;> rfl
  | nan => cases d <;> rfl

theorem aff_div (hs : 0 < s) (d k : Fl) : aff s 0 d / k = aff s 0 (d / k) := by
  rw [ExactOps.div, ExactOps.div]
  cases d with
  | fin d =>
    cases k with
    | fin k =>
      simp only [aff_fin, add_zero, divX, infOf_mul hs]
      split
      · unfold infOf; split_ifs <;> rfl
      · simp [mul_div_assoc]
    | _ => simp [divX]
  | _ => cases k <;> simp [divX] <;> split_ifs <;> rfl

theorem aff_plus (d : ℚ) (a b : Fl) : aff s d a + aff s c b = aff s (d + c) (a + b) := by
  rw [ExactOps.add, ExactOps.add]
  cases a <;> cases b <;> simp [addX]
  ring

theorem aff_sum (l : List Fl) (d : ℚ) (v : Fl) : (l.map (aff s c)).foldl (· + ·) (aff s d v) = aff s (d + l.length * c) (l.foldl (· + ·) v) := by
  induction l generalizing d v with
  | nil => simp
  | cons x l ih =>
    simp only [List.map_cons, List.foldl_cons, aff_plus, ih, List.length_cons]
    congr 1
    push_cast
    ring

/-- The mean of points. -/
theorem aff_mean (hs : 0 < s) {n : ℕ} (f : Fin n → Fl) : vsum (fun i => aff s c (f i)) / Fl.ofNat n = aff s c (vsum f / Fl.ofNat n) := by
  have h : vsum (fun i => aff s c (f i)) = aff s (n * c) (vsum f) := by
    have := aff_sum (s := s) (c := c) (List.ofFn f) 0 0
    rw [List.map_ofFn] at this
    unfold vsum
    rw [show aff s 0 (0 : Fl) = 0 by change Fl.fin _ = Fl.fin 0; simp] at this
    simpa [Function.comp_def] using this
  rw [h]
  by_cases hn : n = 0
  · subst hn
    have : vsum f = .fin 0 := rfl
    rw [this, ExactOps.div, ExactOps.div]
    simp [divX, Fl.ofNat, infOf]
  · have hq : (n : ℚ) ≠ 0 := by exact_mod_cast hn
    rw [ExactOps.div, ExactOps.div]
    cases vsum f with
    | fin q =>
      simp only [aff_fin, divX, Fl.ofNat, hq, if_false]
      congr 1
      field_simp
    | _ => simp [divX, Fl.ofNat] <;> split_ifs <;> rfl

end

theorem aff_abs (hs : 0 < s) (d : Fl) : (aff s 0 d).abs = aff s 0 d.abs := by
  cases d <;> simp [abs, abs_mul, abs_of_pos hs]

theorem aff_neg (d : Fl) : -aff s 0 d = aff s 0 (-d) := by
  cases d <;> simp

end Fl

/-- A change of variables: coordinate `j` is multiplied by `s j` and `c j` is added. -/
structure Chart (D : ℕ) where
  s : Fin D → ℚ
  c : Fin D → ℚ
  pos : ∀ j, 0 < s j

namespace Chart

/-- A point in the new variables. -/
def pt (a : Chart D) (x : Vec D) : Vec D := fun j => (x j).aff (a.s j) (a.c j)
/-- A difference of points in the new variables. -/
def dir (a : Chart D) (v : Vec D) : Vec D := fun j => (v j).aff (a.s j) 0

/-- Only the origin is moved. -/
def Shift (a : Chart D) : Prop := ∀ j, a.s j = 1
/-- Only the units are changed. -/
def Units (a : Chart D) : Prop := ∀ j, a.c j = 0

theorem Shift.dir {a : Chart D} (h : a.Shift) (v : Vec D) : a.dir v = v := by
  funext j
  simp [Chart.dir, h j, Fl.aff_id]

theorem pt_inj (a : Chart D) {x y : Vec D} : a.pt x = a.pt y ↔ x = y := by
  refine ⟨fun h => funext fun j => ?_, fun h => h ▸ rfl⟩
  exact (Fl.aff_inj (a.pos j)).1 (congrFun h j)

/-- Proves that a point computed from points in the new variables is the computed one in the new variables. -/
syntax "chart" term : tactic
macro_rules | `(tactic| chart $a:term) => `(tactic| (
  funext j
  simp only [Chart.pt, Chart.dir, Fl.aff_sub, Fl.aff_sub', Fl.aff_mul (Chart.pos $a j), Fl.aff_mul' (Chart.pos $a j), Fl.aff_div (Chart.pos $a j),
    Fl.aff_abs (Chart.pos $a j), Fl.aff_neg, Fl.aff_add, Fl.aff_add', id_eq] <;> try rfl))

/-- The same if only the origin is moved. -/
syntax "shift" term : tactic
macro_rules | `(tactic| shift $h:term) => `(tactic| (
  funext j
  simp only [Chart.pt, $h:term j, Fl.shift_sub, id_eq]
  try simp only [Fl.shift_add, Fl.shift_add', Fl.shift_sub']
  try rfl))

/-- A solution with its fitness. -/
def sol (a : Chart D) (b : Vec D × Fl) : Vec D × Fl := (a.pt b.1, b.2)

end Chart

/-- The search space in the new variables. -/
def Box.move (a : Chart D) (B : Box D) : Box D := ⟨a.pt B.lo, a.pt B.hi, fun i => (Fl.aff_le (a.pos i)).2 (B.le i)⟩

/-- What a callback is shown, in the new variables. -/
def Event.move (a : Chart D) : Event (Vec D) → Event (Vec D)
  | .beforeRun => .beforeRun
  | .beforeIteration pop fpop xb fxb => .beforeIteration (pop.map a.pt) fpop (a.pt xb) fxb
  | .afterIteration pop fpop xb fxb => .afterIteration (pop.map a.pt) fpop (a.pt xb) fxb
  | .afterRun => .afterRun

/-- `Generator.uniform(lo, hi)` returns `lo + (hi - lo) * u` where `u` does not depend on the bounds. -/
def UnifLaw (r : Rng) : Prop := ∃ u : ℕ → ℕ → ℚ, ∀ k j lo hi, lo ≤ hi → r.unif k j (.fin lo) (.fin hi) = .fin (lo + (hi - lo) * u k j)

/-- `env'` is the task of `env` in the new variables: the objective has the same values at corresponding points, and repair functions and callbacks do the same.
The random numbers are the same. -/
structure Recharted (a : Chart D) (env env' : Env (Vec D)) : Prop where
  obj : ∀ k x, env'.obj k (a.pt x) = env.obj k x
  opt : env'.opt = env.opt
  maxEvals : env'.maxEvals = env.maxEvals
  maxIters : env'.maxIters = env.maxIters
  cutoff : env'.cutoff = env.cutoff
  repair : ∀ k x, env'.repairFn env.rng k (a.pt x) = a.pt (env.repairFn env.rng k x)
  repairU : ∀ k x, env'.repairFn env.entropy k (a.pt x) = a.pt (env.repairFn env.entropy k x)
  rng : env'.rng = env.rng
  entropy : env'.entropy = env.entropy
  callback : ∀ i k e, env'.callback i k (e.move a) = env.callback i k e
  unif : UnifLaw env.rng

/-- Two executions that have gone corresponding ways so far. -/
structure Beside (a : Chart D) (w w' : World (Vec D)) : Prop where
  st : w'.st = w.st
  calls : w'.calls = w.calls.map fun c => (a.pt c.1, c.2)
  events : w'.events = w.events.map fun e => (e.1, e.2.move a)
  rk : w'.rk = w.rk
  ek : w'.ek = w.ek

variable {a : Chart D} {env env' : Env (Vec D)}

theorem Beside.init (t : OptType) : Beside a (World.init t) (World.init t) := by constructor <;> simp [World.init]

theorem Recharted.stopping (hE : Recharted a env env') (st : TaskSt) : stoppingCondition env'.toTaskCfg st = stoppingCondition env.toTaskCfg st := by
  simp only [stoppingCondition, hE.opt, hE.maxEvals, hE.maxIters, hE.cutoff]

/-- In corresponding worlds `q`, run in `env'`, does what `p` does in `env`. -/
structure Mirrors (a : Chart D) (env env' : Env (Vec D)) (φ : α → β) (p : Prog (Vec D) α) (q : Prog (Vec D) β) : Prop where
  out : ∀ w w', Beside a w w' → (∃ r w1 w1', p.run env w = (.ok r, w1) ∧ q.run env' w' = (.ok (φ r), w1') ∧ Beside a w1 w1') ∨
    ∃ e w1 w1', p.run env w = (.error e, w1) ∧ q.run env' w' = (.error e, w1') ∧ Beside a w1 w1'

/-- A program that does not touch points: it evaluates and repairs nothing and calls no callback. -/
def Prog.Numb {X : Type} : Prog X α → Prop
  | .pure _ => True
  | .throw _ => True
  | .op (.eval _) _ => False
  | .op (.repair _ _) _ => False
  | .op (.fire _ _) _ => False
  | .op _ k => ∀ r, (k r).Numb

namespace Prog.Numb
variable {X : Type}

theorem bind {p : Prog X α} {f : α → Prog X β} (hp : p.Numb) (hf : ∀ a, (f a).Numb) : (p.bind f).Numb := by
  induction p with
  | pure a => exact hf a
  | throw e => trivial
  | op o k ih => cases o <;> first | exact fun r => ih r (hp r) | exact hp

theorem bind' {p : Prog X α} {f : α → Prog X β} (hp : p.Numb) (hf : ∀ a, (f a).Numb) : (p >>= f).Numb := bind hp hf
theorem pure' {a : α} : (Pure.pure a : Prog X α).Numb := trivial
theorem throw' {e : PyErr} : (.throw e : Prog X α).Numb := trivial
theorem ofExcept {r : Except PyErr α} : (Prog.ofExcept r : Prog X α).Numb := by cases r <;> trivial
theorem rand : (Prog.rand : Prog X Fl).Numb := fun _ => ofExcept
theorem look : (Prog.look : Prog X TaskView).Numb := fun _ => ofExcept
theorem unif {a b : Fl} : (Prog.unif a b : Prog X Fl).Numb := fun _ => ofExcept
theorem dist {d : Dist} {a b : Fl} : (Prog.dist d a b : Prog X Fl).Numb := fun _ => ofExcept
theorem norm {a b : Fl} : (Prog.norm a b : Prog X Fl).Numb := fun _ => ofExcept
theorem int {n : ℕ} : (Prog.int n : Prog X ℕ).Numb := fun _ => ofExcept
theorem perm {n : ℕ} : (Prog.perm n : Prog X (List ℕ)).Numb := fun _ => ofExcept
theorem argsort {l : List Fl} : (Prog.argsort l : Prog X (List ℕ)).Numb := fun _ => ofExcept

theorem tabM {n : ℕ} {f : Fin n → Prog X α} (h : ∀ i, (f i).Numb) : (NiaPy.tabM n f).Numb := by
  induction n with
  | zero => trivial
  | succ n ih => exact bind (h 0) fun a => bind (ih fun i => h i.succ) fun r => trivial

theorem mapM' {l : List β} {f : β → Prog X α} (h : ∀ b, (f b).Numb) : (NiaPy.mapM' l f).Numb := by
  induction l with
  | nil => trivial
  | cons b l ih => exact bind (h b) fun a => bind ih fun r => trivial

theorem forFin {n : ℕ} {f : Fin n → σ → Prog X σ} {s : σ} (h : ∀ i s, (f i s).Numb) : (NiaPy.forFin n f s).Numb := by
  induction n generalizing s with
  | zero => trivial
  | succ n ih => exact bind (h 0 s) fun a => ih fun i s => h i.succ s

theorem forList {l : List β} {f : β → σ → Prog X σ} {s : σ} (h : ∀ i s, (f i s).Numb) : (NiaPy.forList l f s).Numb := by
  induction l generalizing s with
  | nil => trivial
  | cons b l ih => exact bind (h b s) fun a => ih

theorem intFin {n : ℕ} : (NiaPy.intFin n : Prog X (Fin n)).Numb := bind int fun k => by split <;> trivial
theorem argminRec {val : α → Fl} {l : List α} : (NiaPy.argminRec val l : Prog X α).Numb := ofExcept

end Prog.Numb

/-- Further programs that do not touch points, to be extended with `macro_rules`. -/
syntax "numb_step" : tactic
macro_rules | `(tactic| numb_step) => `(tactic| fail "no rule")

/-- Proves that a program does not touch points. -/
macro "numb" : tactic => `(tactic| repeat' first
  | assumption
  | intro _
  | exact Prog.Numb.pure'
  | exact Prog.Numb.throw'
  | exact Prog.Numb.ofExcept
  | exact Prog.Numb.rand
  | exact Prog.Numb.look
  | exact Prog.Numb.unif
  | exact Prog.Numb.dist
  | exact Prog.Numb.norm
  | exact Prog.Numb.int
  | exact Prog.Numb.perm
  | exact Prog.Numb.argsort
  | exact Prog.Numb.intFin
  | apply Prog.Numb.tabM
  | apply Prog.Numb.mapM'
  | apply Prog.Numb.forFin
  | apply Prog.Numb.forList
  | numb_step
  | apply Prog.Numb.bind'
  | apply Prog.Numb.bind
  | split
  | dsimp only)

namespace Prog.Numb
variable {X : Type}

theorem permIdx {n : ℕ} : (NiaPy.permIdx n : Prog X (Fin n → Fin n)).Numb := by unfold NiaPy.permIdx; numb
theorem sortIdx {n : ℕ} {fs : Fin n → Fl} : (NiaPy.sortIdx fs : Prog X (Fin n → Fin n)).Numb := by unfold NiaPy.sortIdx; numb
theorem scaleIdx {n : ℕ} : (NiaPy.scaleIdx n : Prog X (Fin n)).Numb := by unfold NiaPy.scaleIdx; numb
macro_rules | `(tactic| numb_step) => `(tactic| exact Prog.Numb.permIdx)
macro_rules | `(tactic| numb_step) => `(tactic| exact Prog.Numb.sortIdx)
macro_rules | `(tactic| numb_step) => `(tactic| exact Prog.Numb.scaleIdx)
theorem choiceFin {n k : ℕ} : (NiaPy.choiceFin n k : Prog X (Fin k → Fin n)).Numb := by unfold NiaPy.choiceFin; numb
theorem choiceRep {n k : ℕ} : (NiaPy.choiceRep n k : Prog X (Fin k → Fin n)).Numb := by unfold NiaPy.choiceRep; numb
theorem choiceOther {n k : ℕ} {ic : Fin n} : (NiaPy.choiceOther n k ic : Prog X (Fin k → Fin n)).Numb := by unfold NiaPy.choiceOther; numb
theorem randVec {n : ℕ} : (NiaPy.randVec n : Prog X (Vec n)).Numb := by unfold NiaPy.randVec; numb
theorem normVec {n : ℕ} {a b : Fl} : (NiaPy.normVec n a b : Prog X (Vec n)).Numb := by unfold NiaPy.normVec; numb
theorem unifVec {n : ℕ} {a b : Vec n} : (NiaPy.unifVec a b : Prog X (Vec n)).Numb := by unfold NiaPy.unifVec; numb
theorem levyVec [Arith] {n : ℕ} {a : Fl} : (NiaPy.levyVec n a : Prog X (Vec n)).Numb := by unfold NiaPy.levyVec; numb
macro_rules | `(tactic| numb_step) => `(tactic| exact Prog.Numb.choiceFin)
macro_rules | `(tactic| numb_step) => `(tactic| exact Prog.Numb.choiceRep)
macro_rules | `(tactic| numb_step) => `(tactic| exact Prog.Numb.choiceOther)
macro_rules | `(tactic| numb_step) => `(tactic| exact Prog.Numb.randVec)
macro_rules | `(tactic| numb_step) => `(tactic| exact Prog.Numb.normVec)
macro_rules | `(tactic| numb_step) => `(tactic| exact Prog.Numb.unifVec)
macro_rules | `(tactic| numb_step) => `(tactic| exact Prog.Numb.levyVec)
macro_rules | `(tactic| numb_step) => `(tactic| exact Prog.Numb.argminRec)
theorem argminIdx {n : ℕ} {f : Fin n → Fl} : (NiaPy.argminIdx f : Prog X (Fin n)).Numb := argminRec
theorem argmaxIdx {n : ℕ} {f : Fin n → Fl} : (NiaPy.argmaxIdx f : Prog X (Fin n)).Numb := argminRec
macro_rules | `(tactic| numb_step) => `(tactic| exact Prog.Numb.argminIdx)
macro_rules | `(tactic| numb_step) => `(tactic| exact Prog.Numb.argmaxIdx)

end Prog.Numb

namespace Mirrors

theorem pure' {φ : α → β} {r : α} {b : β} (h : b = φ r) : Mirrors a env env' φ (Pure.pure r) (Pure.pure b) :=
  ⟨fun w w' hw => .inl ⟨r, w, w', rfl, by rw [h]; rfl, hw⟩⟩

theorem throw {φ : α → β} {e : PyErr} : Mirrors a env env' φ (.throw e) (.throw e) := ⟨fun w w' hw => .inr ⟨e, w, w', rfl, rfl, hw⟩⟩

theorem bind {φ : α → β} {ψ : γ → δ} {p : Prog (Vec D) α} {q : Prog (Vec D) β} {f : α → Prog (Vec D) γ} {k : β → Prog (Vec D) δ} (h : Mirrors a env env' φ p q)
    (hf : ∀ r, Mirrors a env env' ψ (f r) (k (φ r))) : Mirrors a env env' ψ (p.bind f) (q.bind k) := ⟨fun w w' hw => by
  rw [Prog.run_bind, Prog.run_bind]
  rcases h.out w w' hw with ⟨a, w1, w1', h1, h2, h3⟩ | ⟨e, w1, w1', h1, h2, h3⟩
  · rw [h1, h2]; exact (hf a).out w1 w1' h3
  · rw [h1, h2]; exact .inr ⟨e, w1, w1', rfl, rfl, h3⟩⟩

theorem bind' {φ : α → β} {ψ : γ → δ} {p : Prog (Vec D) α} {q : Prog (Vec D) β} {f : α → Prog (Vec D) γ} {k : β → Prog (Vec D) δ} (h : Mirrors a env env' φ p q)
    (hf : ∀ r, Mirrors a env env' ψ (f r) (k (φ r))) : Mirrors a env env' ψ (p >>= f) (q >>= k) := bind h hf

theorem ofExcept {φ : α → β} {r : Except PyErr α} {r' : Except PyErr β} (h : r' = r.map φ) : Mirrors a env env' φ (Prog.ofExcept r) (Prog.ofExcept r') := by
  subst h
  cases r with
  | error e => exact throw
  | ok a => exact pure' rfl

theorem ite {φ : α → β} {c c' : Prop} [Decidable c] [Decidable c'] {p p' : Prog (Vec D) α} {q q' : Prog (Vec D) β} (hc : c' ↔ c) (h : c → Mirrors a env env' φ p q)
    (h' : ¬ c → Mirrors a env env' φ p' q') : Mirrors a env env' φ (if c then p else p') (if c' then q else q') := by
  by_cases hh : c
  · rw [if_pos hh, if_pos (hc.2 hh)]; exact h hh
  · rw [if_neg hh, if_neg fun h => hh (hc.1 h)]; exact h' hh

theorem eval (hE : Recharted a env env') {x y : Vec D} (hy : y = a.pt x := by rfl) : Mirrors a env env' id (Prog.eval x) (Prog.eval y) := ⟨fun w w' h => by
  subst hy
  rw [Prog.run_eval, Prog.run_eval]
  have hst : evalTask env'.toTaskCfg w'.st (a.pt x) = ((evalTask env.toTaskCfg w.st x).1, (evalTask env.toTaskCfg w.st x).2.1,
      (evalTask env.toTaskCfg w.st x).2.2.map fun c => (a.pt c.1, c.2)) := by
    simp only [evalTask, hE.stopping, h.st, hE.obj, hE.opt]
    split
    · rfl
    · cases env.obj w.st.evals x <;> rfl
  rw [hst]
  have hw : Beside a { w with st := (evalTask env.toTaskCfg w.st x).2.1, calls := w.calls ++ (evalTask env.toTaskCfg w.st x).2.2 }
      { w' with st := (evalTask env.toTaskCfg w.st x).2.1, calls := w'.calls ++ (evalTask env.toTaskCfg w.st x).2.2.map fun c => (a.pt c.1, c.2) } := by
    constructor <;> simp [h.calls, h.events, h.rk, h.ek]
  cases hr : (evalTask env.toTaskCfg w.st x).1 with
  | error e => exact .inr ⟨e, _, _, rfl, rfl, hw⟩
  | ok v => exact .inl ⟨v, _, _, rfl, rfl, hw⟩⟩

theorem repair (hE : Recharted a env env') {x y : Vec D} {s : Bool} (hy : y = a.pt x := by rfl) : Mirrors a env env' a.pt (Prog.repair x s) (Prog.repair y s) :=
  ⟨fun w w' h => by
    subst hy
    cases s
    · refine .inl ⟨env.repairFn env.entropy w.ek x, { w with ek := w.ek + 1 }, { w' with ek := w'.ek + 1 }, rfl, ?_, ?_⟩
      · change (Except.ok (env'.repairFn env'.entropy w'.ek (a.pt x)), { w' with ek := w'.ek + 1 }) = _
        rw [hE.entropy, h.ek, hE.repairU]
      · constructor <;> simp [h.st, h.calls, h.events, h.rk, h.ek]
    · refine .inl ⟨env.repairFn env.rng w.rk x, { w with rk := w.rk + 1 }, { w' with rk := w'.rk + 1 }, rfl, ?_, ?_⟩
      · change (Except.ok (env'.repairFn env'.rng w'.rk (a.pt x)), { w' with rk := w'.rk + 1 }) = _
        rw [hE.rng, h.rk, hE.repair]
      · constructor <;> simp [h.st, h.calls, h.events, h.rk, h.ek]⟩

theorem next : Mirrors a env env' (fun _ => ()) (Prog.next : Prog (Vec D) Unit) Prog.next := ⟨fun w w' h => by
  refine .inl ⟨(), { w with st := nextIter w.st }, { w' with st := nextIter w'.st }, rfl, rfl, ?_⟩
  constructor <;> simp [h.st, h.calls, h.events, h.rk, h.ek]⟩

theorem fire (hE : Recharted a env env') {i : ℕ} {e : Event (Vec D)} : Mirrors a env env' (fun _ => ()) (Prog.fire i e) (Prog.fire i (e.move a)) := ⟨fun w w' h => by
  have hc := hE.callback i w.events.length e
  have hl : w'.events.length = w.events.length := by rw [h.events, List.length_map]
  have hal : Beside a { w with events := w.events ++ [(i, e)] } { w' with events := w'.events ++ [(i, e.move a)] } := by
    constructor <;> simp [h.st, h.calls, h.events, h.rk, h.ek]
  simp only [Prog.fire, Prog.lift, Prog.run, stepOp, hl, hc]
  cases hr : env.callback i w.events.length e with
  | error e => exact .inr ⟨e, _, _, rfl, rfl, hal⟩
  | ok u => exact .inl ⟨u, _, _, rfl, rfl, hal⟩⟩

/-- A uniform draw between corresponding bounds. -/
theorem unif (hE : Recharted a env env') {j : Fin D} {lo hi : Fl} :
    Mirrors a env env' (Fl.aff (a.s j) (a.c j)) (Prog.unif lo hi) (Prog.unif (lo.aff (a.s j) (a.c j)) (hi.aff (a.s j) (a.c j))) := ⟨fun w w' h => by
  obtain ⟨u, hu⟩ := hE.unif
  have hpos := a.pos j
  have key : ∀ lo hi : Fl, ∀ e, unifErr lo hi = some e → (Prog.unif lo hi : Prog (Vec D) Fl).run env w = (.error e, w) := by
    intro lo hi e he
    simp only [Prog.unif, Prog.lift, Prog.run, stepOp, he]
    rfl
  have key' : ∀ lo hi : Fl, ∀ e, unifErr lo hi = some e → (Prog.unif lo hi : Prog (Vec D) Fl).run env' w' = (.error e, w') := by
    intro lo hi e he
    simp only [Prog.unif, Prog.lift, Prog.run, stepOp, he]
    rfl
  cases lo with
  | fin p =>
    cases hi with
    | fin q =>
      by_cases hle : p ≤ q
      · have hle' : a.s j * p + a.c j ≤ a.s j * q + a.c j := by
          have := mul_le_mul_of_nonneg_left hle hpos.le
          linarith
        refine .inl ⟨env.rng.unif w.rk 0 (.fin p) (.fin q), { w with rk := w.rk + 1 }, { w' with rk := w'.rk + 1 }, ?_, ?_, ?_⟩
        · simp only [Prog.unif, Prog.lift, Prog.run, stepOp, unifErr, hle, if_true]
          rfl
        · simp only [Prog.unif, Prog.lift, Prog.run, stepOp, unifErr, Fl.aff_fin, hle', if_true, hE.rng, h.rk]
          rw [hu _ _ _ _ hle, hu _ _ _ _ hle']
          simp only [Prog.ofExcept, Prog.run, Fl.aff_fin]
          congr 3
          ring
        · constructor <;> simp [h.st, h.calls, h.events, h.rk, h.ek]
      · have hle' : ¬ a.s j * p + a.c j ≤ a.s j * q + a.c j := by
          have := mul_lt_mul_of_pos_left (not_le.1 hle) hpos
          intro h'
          linarith
        exact .inr ⟨.valueError, w, w', key _ _ _ (by simp [unifErr, hle]), key' _ _ _ (by simp only [Fl.aff_fin, unifErr, hle', if_false]), h⟩
    | _ => exact .inr ⟨.overflowError, w, w', key _ _ _ rfl, key' _ _ _ rfl, h⟩
  | _ => exact .inr ⟨.overflowError, w, w', key _ _ _ rfl, key' _ _ _ rfl, h⟩⟩

/-- Whatever does not touch points goes the same way. -/
theorem numb (hE : Recharted a env env') {p : Prog (Vec D) α} (hp : p.Numb) : Mirrors a env env' id p p := ⟨fun w w' h => by
  induction p generalizing w w' with
  | pure r => exact .inl ⟨r, w, w', rfl, rfl, h⟩
  | throw e => exact .inr ⟨e, w, w', rfl, rfl, h⟩
  | op o k ih =>
    have key : (stepOp env' w' o).1 = (stepOp env w o).1 → Beside a (stepOp env w o).2 (stepOp env' w' o).2 → (∀ r, (k r).Numb) →
        (∃ r w1 w1', (Prog.op o k).run env w = (.ok r, w1) ∧ (Prog.op o k).run env' w' = (.ok (id r), w1') ∧ Beside a w1 w1') ∨
        ∃ e w1 w1', (Prog.op o k).run env w = (.error e, w1) ∧ (Prog.op o k).run env' w' = (.error e, w1') ∧ Beside a w1 w1' := by
      intro h1 h2 h3
      simp only [Prog.run, h1]
      exact ih _ (h3 _) _ _ h2
    cases o with
    | eval x => exact hp.elim
    | fire i e => exact hp.elim
    | repair b x => exact hp.elim
    | nextIter =>
      refine key rfl ?_ hp
      simp only [stepOp]
      constructor <;> simp [h.st, h.calls, h.events, h.rk, h.ek]
    | look =>
      refine key ?_ h hp
      simp only [stepOp, hE.stopping, h.st, hE.maxIters, hE.maxEvals]
    | int n =>
      refine key ?_ ?_ hp <;> simp only [stepOp] <;> split
      · rfl
      · rw [hE.rng, h.rk]
      · exact h
      · constructor <;> simp [h.st, h.calls, h.events, h.rk, h.ek]
    | unif lo hi =>
      refine key ?_ ?_ hp <;> simp only [stepOp] <;> split
      · rfl
      · rw [hE.rng, h.rk]
      · exact h
      · constructor <;> simp [h.st, h.calls, h.events, h.rk, h.ek]
    | dist d a b =>
      refine key ?_ ?_ hp <;> simp only [stepOp] <;> split
      · rfl
      · rw [hE.rng, h.rk]
      · exact h
      · constructor <;> simp [h.st, h.calls, h.events, h.rk, h.ek]
    | _ =>
      refine key (by simp only [stepOp, hE.rng, h.rk]) ?_ hp
      simp only [stepOp]
      constructor <;> simp [h.st, h.calls, h.events, h.rk, h.ek]⟩

/-- Programs that begin with a part that does not touch points. -/
theorem step {ψ : γ → δ} {p : Prog (Vec D) α} {f : α → Prog (Vec D) γ} {k : α → Prog (Vec D) δ} (hE : Recharted a env env') (hp : p.Numb)
    (hf : ∀ r, Mirrors a env env' ψ (f r) (k r)) : Mirrors a env env' ψ (p >>= f) (p >>= k) := bind' (numb hE hp) hf

theorem tabM {φ : α → β} {n : ℕ} {f : Fin n → Prog (Vec D) α} {k : Fin n → Prog (Vec D) β} (h : ∀ i, Mirrors a env env' φ (f i) (k i)) :
    Mirrors a env env' (fun r i => φ (r i)) (NiaPy.tabM n f) (NiaPy.tabM n k) := by
  induction n with
  | zero => exact pure' (funext fun i => i.elim0)
  | succ n ih =>
    refine bind (h 0) fun a => bind (ih fun i => h i.succ) fun r => pure' (funext fun i => ?_)
    refine Fin.cases ?_ (fun i => ?_) i <;> rfl

/-- `tabM` with a correspondence that depends on the position. -/
theorem tabMD {n : ℕ} {φ : Fin n → α → β} {f : Fin n → Prog (Vec D) α} {k : Fin n → Prog (Vec D) β} (h : ∀ i, Mirrors a env env' (φ i) (f i) (k i)) :
    Mirrors a env env' (fun r i => φ i (r i)) (NiaPy.tabM n f) (NiaPy.tabM n k) := by
  induction n with
  | zero => exact pure' (funext fun i => i.elim0)
  | succ n ih =>
    refine bind (h 0) fun a => bind (ih fun i => h i.succ) fun r => pure' (funext fun i => ?_)
    refine Fin.cases ?_ (fun i => ?_) i <;> rfl

theorem unifVec (hE : Recharted a env env') {lo hi : Vec D} : Mirrors a env env' a.pt (NiaPy.unifVec lo hi) (NiaPy.unifVec (a.pt lo) (a.pt hi)) :=
  .tabMD fun _ => .unif hE

theorem mapM' {ι ι' : Type} {φ : α → β} {j : ι → ι'} {l : List ι} {f : ι → Prog (Vec D) α} {k : ι' → Prog (Vec D) β} (h : ∀ i, Mirrors a env env' φ (f i) (k (j i))) :
    Mirrors a env env' (List.map φ) (NiaPy.mapM' l f) (NiaPy.mapM' (l.map j) k) := by
  induction l with
  | nil => exact pure' rfl
  | cons i l ih => exact bind (h i) fun a => bind ih fun r => pure' rfl

theorem mapMS {ι : Type} {φ : α → β} {l : List ι} {f : ι → Prog (Vec D) α} {k : ι → Prog (Vec D) β} (h : ∀ i ∈ l, Mirrors a env env' φ (f i) (k i)) :
    Mirrors a env env' (List.map φ) (NiaPy.mapM' l f) (NiaPy.mapM' l k) := by
  induction l with
  | nil => exact pure' rfl
  | cons i l ih => exact bind (h i (by simp)) fun a => bind (ih fun i hi => h i (by simp [hi])) fun r => pure' rfl

theorem forFin {τ : Type} {φ : σ → τ} {n : ℕ} {f : Fin n → σ → Prog (Vec D) σ} {k : Fin n → τ → Prog (Vec D) τ} {s : σ} {t : τ}
    (h : ∀ i s, Mirrors a env env' φ (f i s) (k i (φ s))) (ht : t = φ s := by rfl) : Mirrors a env env' φ (NiaPy.forFin n f s) (NiaPy.forFin n k t) := by
  subst ht
  induction n generalizing s with
  | zero => exact pure' rfl
  | succ n ih => exact bind (h 0 s) fun a => ih fun i => h i.succ

theorem forList {ι τ : Type} {φ : σ → τ} {l : List ι} {f : ι → σ → Prog (Vec D) σ} {k : ι → τ → Prog (Vec D) τ} {s : σ} {t : τ}
    (h : ∀ i s, Mirrors a env env' φ (f i s) (k i (φ s))) (ht : t = φ s := by rfl) : Mirrors a env env' φ (NiaPy.forList l f s) (NiaPy.forList l k t) := by
  subst ht
  induction l generalizing s with
  | nil => exact pure' rfl
  | cons i l ih => exact bind (h i s) fun a => ih

end Mirrors

/-! ### Choosing the best -/

theorem getBest_move (pop : List (Vec D)) (fit : List Fl) (xb : Option (Vec D)) (fxb : Fl) :
    getBest (pop.map a.pt) fit (xb.map a.pt) fxb = (getBest pop fit xb fxb).map a.sol := by
  unfold getBest
  cases argmin fit with
  | error e => rfl
  | ok ib =>
    simp only [List.getElem?_map]
    cases fit[ib]? with
    | none => rfl
    | some f =>
      simp only
      split
      · cases pop[ib]? <;> rfl
      · cases xb <;> rfl

theorem Mirrors.getBest {pop pop' : List (Vec D)} {fit : List Fl} {xb : Vec D} {fxb : Fl} (h : pop' = pop.map a.pt) :
    Mirrors a env env' a.sol (Prog.getBest pop fit xb fxb) (Prog.getBest pop' fit (a.pt xb) fxb) := by
  subst h
  exact .ofExcept (getBest_move _ _ (some xb) _)

theorem ofFn_move {n : ℕ} (f : Fin n → Vec D) : (List.ofFn fun i => a.pt (f i)) = (List.ofFn f).map a.pt := by rw [List.map_ofFn]; rfl

theorem Mirrors.getBestRows {n : ℕ} {pop : Fin n → Vec D} {fit : Fin n → Fl} {xb : Vec D} {fxb : Fl} :
    Mirrors a env env' a.sol (Prog.getBest (List.ofFn pop) (List.ofFn fit) xb fxb) (Prog.getBest (List.ofFn fun i => a.pt (pop i)) (List.ofFn fit) (a.pt xb) fxb) :=
  .getBest (ofFn_move _)

theorem getBest1_move (x : Vec D) (f : Fl) (xb : Vec D) (fxb : Fl) : getBest1 (a.pt x) f (a.pt xb) fxb = a.sol (getBest1 x f xb fxb) := by
  unfold getBest1
  split <;> rfl

theorem betterLt_move (x : Vec D) (f : Fl) (xb : Vec D) (fxb : Fl) : betterLt (a.pt x) f (a.pt xb) fxb = a.sol (betterLt x f xb fxb) := by
  unfold betterLt
  split <;> rfl

theorem update_move {n : ℕ} (f : Fin n → Vec D) (i : Fin n) (v : Vec D) :
    Function.update (fun j => a.pt (f j)) i (a.pt v) = fun j => a.pt (Function.update f i v j) := by
  funext j
  by_cases h : j = i
  · subst h; simp
  · simp [Function.update_of_ne h]

theorem Mirrors.argminRec {val : α → Fl} {val' : β → Fl} {φ : α → β} (hv : ∀ r, val' (φ r) = val r) {l : List α} :
    Mirrors a env env' φ (NiaPy.argminRec val l : Prog (Vec D) α) (NiaPy.argminRec val' (l.map φ)) := by
  refine .ofExcept ?_
  have e : (l.map φ).map val' = l.map val := by simp [List.map_map, Function.comp_def, hv]
  rw [e]
  cases argmin (l.map val) with
  | error e => rfl
  | ok i =>
    simp only [List.getElem?_map]
    cases l[i]? <;> rfl

theorem Mirrors.sortRecs (hE : Recharted a env env') {val : α → Fl} {val' : β → Fl} {φ : α → β} (hv : ∀ r, val' (φ r) = val r) {l : List α} :
    Mirrors a env env' (List.map φ) (NiaPy.sortRecs val l : Prog (Vec D) (List α)) (NiaPy.sortRecs val' (l.map φ)) := by
  unfold NiaPy.sortRecs
  rw [show (l.map φ).map val' = l.map val by simp [List.map_map, Function.comp_def, hv]]
  refine .step hE .argsort fun ei => .pure' ?_
  simp only [List.getElem?_map, List.map_filterMap]

theorem Mirrors.evalRows (hE : Recharted a env env') {n : ℕ} {pop : Fin n → Vec D} :
    Mirrors a env env' id (NiaPy.evalRows pop) (NiaPy.evalRows fun i => a.pt (pop i)) := by
  unfold NiaPy.evalRows
  exact .ite Iff.rfl (fun _ => .throw) fun _ => .tabM fun i => .eval hE

theorem Mirrors.repairRows (hE : Recharted a env env') {n : ℕ} {pop pop' : Fin n → Vec D} {s : Bool} (h : ∀ i, pop' i = a.pt (pop i)) :
    Mirrors a env env' (fun r i => a.pt (r i)) (NiaPy.repairRows pop s) (NiaPy.repairRows pop' s) := by
  unfold NiaPy.repairRows
  exact .tabM fun i => .repair hE (h i)

theorem Mirrors.evalRecs (hE : Recharted a env env') {l : List (Vec D)} :
    Mirrors a env env' (List.map a.sol) (NiaPy.evalRecs l) (NiaPy.evalRecs (l.map a.pt)) := by
  unfold NiaPy.evalRecs
  refine .ite (by simp) (fun _ => .throw) fun _ => .mapM' fun x => .bind' (.eval hE) fun v => .pure' rfl

theorem Mirrors.moveEval (hE : Recharted a env env') {n : ℕ} {m m' : Fin n → Prog (Vec D) (Vec D)} (hm : ∀ i, Mirrors a env env' a.pt (m i) (m' i)) :
    Mirrors a env env' (fun r i => a.sol (r i)) (NiaPy.moveEval m) (NiaPy.moveEval m') := by
  unfold NiaPy.moveEval
  exact .tabM fun i => .bind' (hm i) fun y => .bind' (.eval hE) fun f => .pure' rfl

theorem Mirrors.defaultNumpyInit (hE : Recharted a env env') {B : Box D} {N : ℕ} :
    Mirrors a env env' (fun r => (fun i => a.pt (r.1 i), r.2)) (NiaPy.defaultNumpyInit B N) (NiaPy.defaultNumpyInit (B.move a) N) := by
  unfold NiaPy.defaultNumpyInit
  exact .bind' (.tabM fun _ => .unifVec hE) fun pop => .ite Iff.rfl (fun _ => .throw) fun _ => .bind' (.tabM fun i => .eval hE) fun f => .pure' rfl

/-- An individual in the new variables. -/
def Indiv.move (a : Chart D) (i : Indiv D) : Indiv D := ⟨a.pt i.x, i.f⟩

theorem Mirrors.evaluate (hE : Recharted a env env') {i i' : Indiv D} (h : i'.x = a.pt i.x) : Mirrors a env env' (Indiv.move a) i.evaluate i'.evaluate := by
  unfold Indiv.evaluate
  rw [h]
  exact .bind' (.repair hE) fun x => .bind' (.eval hE) fun f => .pure' rfl

theorem Mirrors.indivNew (hE : Recharted a env env') {opt : OptType} {x y : Vec D} (h : y = a.pt x) : Mirrors a env env' (Indiv.move a) (Indiv.new opt x) (Indiv.new opt y) :=
  .evaluate hE h

theorem Mirrors.indivRandom (hE : Recharted a env env') {opt : OptType} {B : Box D} :
    Mirrors a env env' (Indiv.move a) (Indiv.random opt B) (Indiv.random opt (B.move a)) := .bind' (.unifVec hE) fun x => .evaluate hE rfl

theorem Mirrors.defaultIndividualInit (hE : Recharted a env env') {opt : OptType} {B : Box D} {N : ℕ} :
    Mirrors a env env' (fun r i => (r i).move a) (NiaPy.defaultIndividualInit opt B N) (NiaPy.defaultIndividualInit opt (B.move a) N) := .tabM fun _ => .indivRandom hE

theorem Mirrors.fireAll (hE : Recharted a env env') {ncb : ℕ} {e : Event (Vec D)} :
    Mirrors a env env' (fun _ => ()) (NiaPy.fireAll ncb e) (NiaPy.fireAll ncb (e.move a)) := .forList (φ := fun _ : Unit => ()) fun _ _ => .fire hE

/-! ### Algorithms -/

/-- `A'` is `A` in the new variables. -/
structure Carries (a : Chart D) (A A' : Alg (Vec D)) (m : A.σ → A'.σ) : Prop where
  pop : ∀ s, A'.pop (m s) = (A.pop s).map a.pt
  fit : ∀ s, A'.fit (m s) = A.fit s
  init : ∀ env env', Recharted a env env' → Mirrors a env env' m A.init A'.init
  iter : ∀ env env', Recharted a env env' → ∀ s xb fxb, Mirrors a env env' (fun r => (m r.1, a.sol r.2)) (A.iter s xb fxb) (A'.iter (m s) (a.pt xb) fxb)

theorem Carries.body {A A' : Alg (Vec D)} {m : A.σ → A'.σ} (hA : Carries a A A' m) (hE : Recharted a env env') (ncb fuel : ℕ) :
    Mirrors a env env' (fun r => (m r.1, a.sol r.2)) (A.body ncb fuel) (A'.body ncb fuel) := by
  have hloop : ∀ fuel s xb fxb, Mirrors a env env' (fun r => (m r.1, a.sol r.2)) (A.loop ncb fuel s xb fxb) (A'.loop ncb fuel (m s) (a.pt xb) fxb) := by
    intro fuel
    induction fuel with
    | zero => intros; exact .throw
    | succ n ih =>
      intro s xb fxb
      unfold Alg.loop
      refine .step hE .look fun v => .ite Iff.rfl (fun _ => .pure' rfl) fun _ => ?_
      rw [hA.pop, hA.fit]
      refine .bind' (.fireAll hE) fun _ => .bind' (hA.iter env env' hE s xb fxb) fun r => ?_
      obtain ⟨s, xb, fxb⟩ := r
      dsimp only
      rw [hA.pop, hA.fit]
      exact .bind' (.fireAll hE) fun _ => .bind' .next fun _ => ih s xb fxb
  unfold Alg.body
  refine .bind' (.fireAll (e := .beforeRun) hE) fun _ => .bind' (hA.init env env' hE) fun s => ?_
  rw [hA.pop, hA.fit]
  exact .bind' (.ofExcept (getBest_move _ _ none _)) fun b => .bind' (hloop fuel s b.1 b.2) fun r => .bind' (.fireAll (e := .afterRun) hE) fun _ => .pure' rfl

/-- If `A'` is `A` in the new variables, a run of `A'` on the task in the new variables evaluates the points of the run of `A` in the new variables, with the same values, and
returns its solution in the new variables with the same fitness (or raises the same exception); the convergence data, the numbers of evaluations and iterations are the
same, and callbacks are shown the same populations in the new variables. -/
theorem Carries.exec {A A' : Alg (Vec D)} {m : A.σ → A'.σ} (hA : Carries a A A' m) (hE : Recharted a env env') (main : Bool) (ncb fuel : ℕ) :
    (match (A.exec env main ncb fuel).1 with
      | .ok r => (A'.exec env' main ncb fuel).1 = .ok ⟨r.result.map a.sol, r.exception⟩
      | .error e => (A'.exec env' main ncb fuel).1 = .error e) ∧
    Beside a (A.exec env main ncb fuel).2 (A'.exec env' main ncb fuel).2 := by
  rw [exec_eq, exec_eq]
  have h0 := Beside.init (a := a) env.opt
  have hw : (A'.execBody env' ncb fuel) = (A'.body ncb fuel).run env' (World.init env.opt) := by rw [← hE.opt]; rfl
  rw [hw]
  rcases (hA.body hE ncb fuel).out _ _ h0 with ⟨r, w1, w1', h1, h2, h3⟩ | ⟨e, w1, w1', h1, h2, h3⟩
  · have h1' : A.execBody env ncb fuel = (.ok r, w1) := h1
    rw [h1', h2]
    simp only [hE.opt]
    exact ⟨rfl, h3⟩
  · have h1' : A.execBody env ncb fuel = (.error e, w1) := h1
    rw [h1', h2]
    by_cases hm : main = true ∨ e = PyErr.outOfFuel
    · simp only [hm, if_true]
      exact ⟨trivial, h3⟩
    · simp only [hm, if_false]
      exact ⟨rfl, h3⟩

end NiaPy
