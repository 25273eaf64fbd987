import Verif.Steps
import Verif.Post

/-!
# Algorithms that work with a single solution
-/

namespace NiaPy
variable [Arith] {D : ℕ} {C : Ctx (Vec D)} {g : Ghost (Vec D)}

/-- `task.lower + task.range * self.random(task.dimension)`. The factors of the product are exchanged as in `AffineLaw` (the
multiplication of Python is commutative). -/
def sample (B : Box D) : Prog (Vec D) (Vec D) := do
  let u ← randVec D
  return fun j => B.lo j + u j * (B.hi j - B.lo j)

theorem Yields.sample {B : Box D} : Yields C (NiaPy.sample B) (Sampled B) :=
  Yields.randVecLe.bind' fun u hu => .pure' ⟨u, hu, rfl⟩

/-- The state of an algorithm with one solution, its fitness and something else. -/
structure One (D : ℕ) (E : Type) where
  x : Vec D
  f : Fl
  ext : E

/-- An initial solution, evaluated as it is. -/
def initOne {E : Type} (B : Box D) (e : E) : Prog (Vec D) (One D E) := do
  let x ← sample B
  let v ← Prog.eval x
  return ⟨x, v, e⟩

theorem Cov.one {v : Fl} (hg : g.b = .pinf) : Cov C (· ∈ [v]) (g.eval v) :=
  ((Cov.pinf hg fun _ => False).eval v).mono fun u hu => by simpa using hu

theorem wp_initOne {E : Type} {B : Box D} {e : E} (hG : ∀ x, Sampled B x → C.G x) (hg : g.b = .pinf) :
    (initOne B e).wp C (fun s g' => C.Fit g'.b s.x s.f ∧ Cov C (· ∈ [s.f]) g' ∧ g'.c = g.c + 1) g := by
  simp only [initOne, Prog.wp_bind']
  refine Yields.sample.wp fun x hx => ?_
  rw [Prog.wp_eval]
  exact ⟨hG x hx, fun v hv => ⟨.new hv, Cov.one hg, rfl⟩⟩

omit [Arith] in
/-- From two fitness values that cover everything evaluated to the new incumbent. -/
theorem Inc.getBest1 {x xb : Vec D} {v fxb : Fl} (h : C.Fit g.b x v) (hb : C.Fit g.b xb fxb) (hc : Cov C (fun u => u = fxb ∨ u = v) g) :
    Inc C (getBest1 x v xb fxb).1 (getBest1 x v xb fxb).2 g := by
  unfold NiaPy.getBest1
  split
  · rename_i hle
    refine Inc.of_cov h (hc.weaken fun hn u hu hu' => ?_)
    rcases hu with rfl | rfl
    · exact ⟨_, rfl, hle⟩
    · exact ⟨_, rfl, Fl.le_refl hu'⟩
  · rename_i hle
    refine Inc.of_cov hb (hc.weaken fun hn u hu hu' => ?_)
    rcases hu with rfl | rfl
    · exact ⟨_, rfl, Fl.le_refl hu'⟩
    · exact ⟨_, rfl, Fl.le_of_lt (Fl.lt_of_not_le (hn _ _ h.1) (hn _ _ hb.1) hle)⟩

/-- The difference of a smaller and a larger number is negative (true of exact arithmetic and, with gradual underflow, of binary64). -/
def SubNeg : Prop := ∀ a b : Fl, a < b → a - b < Fl.fin 0

omit [Arith] in
theorem subNeg_exact (fn : Fn → Fl → Fl) : @SubNeg (exactArith fn) := by
  letI := exactArith fn
  intro a b h
  cases a <;> cases b <;> simp at h
  · exact (by decide +kernel : Fl.ninf < Fl.fin 0)
  · exact (by decide +kernel : Fl.ninf < Fl.fin 0)
  · rename_i p q
    change Fl.fin (p + -q) < _
    rw [Fl.fin_lt_fin]; linarith
  · exact (by decide +kernel : Fl.ninf < Fl.fin 0)

end NiaPy
