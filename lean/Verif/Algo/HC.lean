import Verif.Single
import Verif.Runs

/-!
# Hill climbing (`niapy/algorithms/other/hc.py`)
-/

namespace NiaPy.HC
open NiaPy
variable [Arith] {D : ℕ}

/-- `neighborhood` (hc.py:13-31), the default of `neighborhood_function`. -/
def neighborhood (delta : Fl) (x : Vec D) : Prog (Vec D) (Vec D × Fl) := do
  let u ← normVec D (.fin 0) delta
  let y ← Prog.repair fun j => x j + u j
  let v ← Prog.eval y
  return (y, v)

/-- `while not lo` (hc.py:148-153): neighbours of `x` are tried until one is not better than the last. `True or
task.stopping_condition()` is `True`. A loop of more than `fuel` rounds is cut off with `outOfFuel`. -/
def climb (delta : Fl) (x : Vec D) : ℕ → Vec D × Fl → Prog (Vec D) (Vec D × Fl)
  | 0, _ => .throw .outOfFuel
  | n + 1, b => do
    let y ← neighborhood delta x
    if y.2 < b.2 then climb delta x n y else return b

/-- `run_iteration` (hc.py:128-155). -/
def iter (B : Box D) (delta : Fl) (fuel : ℕ) (s : One D Unit) (xb : Vec D) (fxb : Fl) : Prog (Vec D) (One D Unit × Vec D × Fl) := do
  let x ← sample B
  let v ← Prog.eval x
  let y ← climb delta s.x fuel (x, v)
  return (⟨y.1, y.2, ()⟩, getBest1 y.1 y.2 xb fxb)

/-- Hill climbing (hc.py); the initial solution is evaluated as it was drawn (hc.py:112-126). -/
def alg (B : Box D) (delta : Fl) (fuel : ℕ) : Alg (Vec D) where
  σ := One D Unit
  init := initOne B ()
  pop s := [s.x]
  fit s := [s.f]
  iter := iter B delta fuel

variable {C : Ctx (Vec D)} {g : Ghost (Vec D)}

theorem wp_climb (ho : C.oof) {delta : Fl} {x : Vec D} {n : ℕ} {b : Vec D × Fl} {fxb : Fl} (hb : C.Fit g.b b.1 b.2)
    (hc : Cov C (fun u => u = fxb ∨ u = b.2) g) :
    (climb delta x n b).wp C (fun r g' => C.Fit g'.b r.1 r.2 ∧ Cov C (fun u => u = fxb ∨ u = r.2) g' ∧ g.c + 1 ≤ g'.c) g := by
  induction n generalizing b g with
  | zero => exact fun _ => ho
  | succ n ih =>
    simp only [climb, neighborhood, Prog.wp_bind']
    refine Yields.normVec.wp fun u _ => Yields.repair.wp fun y hy => ?_
    rw [Prog.wp_eval]
    refine ⟨hy, fun v hv => ?_⟩
    simp only [Prog.wp_pure']
    rw [wp_ite]
    refine ⟨fun hlt => ?_, fun hlt => ⟨hb.eval v, (hc.eval v).weaken fun hn u hu hu' => ?_, by simp [Ghost.eval]⟩⟩
    · refine Prog.wp_mono (fun r g' h => ⟨h.1, h.2.1, by have := h.2.2; simp [Ghost.eval] at this; omega⟩)
        (ih (b := (y, v)) (g := g.eval v) (.new hv) ((hc.eval v).weaken fun hn u hu hu' => ?_))
      rcases hu with rfl | rfl | rfl
      · exact ⟨_, Or.inr rfl, Fl.le_refl hu'⟩
      · exact ⟨_, Or.inl rfl, Fl.le_refl hu'⟩
      · exact ⟨_, Or.inr rfl, Fl.le_of_lt hlt⟩
    · rcases hu with rfl | rfl | rfl
      · exact ⟨_, Or.inr rfl, Fl.le_of_not_lt hu' (hn _ _ hb.1) hlt⟩
      · exact ⟨_, Or.inl rfl, Fl.le_refl hu'⟩
      · exact ⟨_, Or.inr rfl, Fl.le_refl hu'⟩

/-- The obligations of hill climbing: one evaluation in the beginning, at least two per iteration. -/
theorem verified (B : Box D) (delta : Fl) (fuel : ℕ) : Verified (alg B delta fuel) (Sampled B) true false ⟨1, 2, none⟩ := by
  refine ⟨fun C s b => C.Fit b s.x s.f, fun C hG hent ho => ⟨fun s b h => .cons h .nil, fun g hg => wp_initOne hG hg, ?_⟩⟩
  intro s xb fxb g hI hF hc
  have hinc : Inc C xb fxb g := ⟨hF, hc⟩
  simp only [alg, iter, Prog.wp_bind']
  refine Yields.sample.wp fun x hx => ?_
  rw [Prog.wp_eval]
  refine ⟨hG x hx, fun v hv => ?_⟩
  refine Prog.wp_mono (fun y g' h => ?_) (Prog.wp_below (wp_climb (ho rfl) (b := (x, v)) (fxb := fxb) (.new hv) ((hinc.cov.eval v).mono
    fun u hu => hu.symm)))
  obtain ⟨⟨h1, h2, h3⟩, hb⟩ := h
  have := Inc.getBest1 h1 ((hinc.toFit.eval v).mono hb) h2
  exact ⟨h1, this.fit, this.eq, by simp [Ghost.eval] at h3; show g.c + 2 ≤ _; omega, nofun⟩

/-- An execution with two iterations. -/
example : ∃ hist w, letI := Ex.arith; Alg.Trace (alg (Ex.box 2) (.fin (1 / 2)) 10) Ex.env2 2 hist w ∧ hist.length = 3 :=
  letI := Ex.arith
  (verified (Ex.box 2) _ _).toIf.exists_trace
    Ex.env2 (metBy_none _ _) (fuel := 5) (by decide +kernel)

end NiaPy.HC
