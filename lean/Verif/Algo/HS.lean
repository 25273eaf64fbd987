import Mathlib.Tactic.Ring
import Mathlib.Tactic.FieldSimp
import Mathlib.Tactic.Positivity
import Mathlib.Tactic.Linarith
import Verif.Steps

/-!
# Harmony search (`niapy/algorithms/basic/hs.py`)
-/

namespace NiaPy.HS
open NiaPy
variable [Arith] {D N : ℕ}

/-- How the bandwidth is computed: `HarmonySearch.bw` (hs.py:102-112) or `HarmonySearchV1.bw` (hs.py:252-262). -/
inductive Width where
  | plain (bRange : Fl)
  | v1 (bwMin bwMax : Fl)

/-- Parameters (hs.py:57-91). -/
structure Par where
  rAccept : Fl
  rPa : Fl
  width : Width

/-- State of a run. -/
structure St (D N : ℕ) where
  pop : Fin N → Vec D
  fit : Fin N → Fl

/-- `Algorithm.init_population` with the default initialization (algorithm.py:246-264). -/
def init (B : Box D) (N : ℕ) : Prog (Vec D) (St D N) := do
  let (pop, fit) ← defaultNumpyInit B N
  return ⟨pop, fit⟩

/-- The bandwidth of `HarmonySearchV1` (hs.py:262). -/
def bandwidth (lo hi : Fl) (v : TaskView) : Fl := lo * Arith.fn .exp (Arith.fn .log (lo / hi) * Fl.ofNat (v.iters + 1) / limF v.maxIters)

/-- `bw` (hs.py:102-112, 252-262). -/
def bw : Width → Prog (Vec D) Fl
  | .plain r => do
    let u ← Prog.unif (-1) 1
    return u * r
  | .v1 lo hi => do
    let v ← Prog.look
    return bandwidth lo hi v

/-- One coordinate of a new harmony (hs.py:140-142). -/
def note (B : Box D) (p : Par) (s : St D N) (i : Fin D) : Prog (Vec D) Fl := do
  let r ← Prog.rand
  let j ← intFin N
  if p.rAccept < r then return s.pop j i
  else if p.rPa < r then do
    let b ← bw p.width
    return s.pop j i + b
  else Prog.unif (B.lo i) (B.hi i)

/-- `improvise` (hs.py:127-143). -/
def improvise (B : Box D) (p : Par) (s : St D N) : Prog (Vec D) (Vec D) := tabM D fun i => note B p s i

/-- `run_iteration` (hs.py:145-171). The repair functions of NiaPy change their argument in place, so the harmony that is kept is
the repaired one. -/
def iter (B : Box D) (p : Par) (s : St D N) (xb : Vec D) (fxb : Fl) : Prog (Vec D) (St D N × Vec D × Fl) := do
  let h ← improvise B p s
  let h ← Prog.repair h
  let v ← Prog.eval h
  let iw ← argmaxIdx s.fit
  let s' : St D N := if v ≤ s.fit iw then ⟨Function.update s.pop iw h, Function.update s.fit iw v⟩ else s
  return (s', getBest1 h v xb fxb)

/-- Harmony search with population size `N` (hs.py). -/
def alg (B : Box D) (N : ℕ) (p : Par) : Alg (Vec D) where
  σ := St D N
  init := init B N
  pop s := List.ofFn s.pop
  fit s := List.ofFn s.fit
  iter := iter B p

variable {C : Ctx (Vec D)}

theorem bw_quiet (w : Width) : Quiet C (bw w) := by
  cases w <;> unfold bw <;> yields

theorem note_quiet (B : Box D) (p : Par) (s : St D N) (i : Fin D) : Quiet C (note B p s i) := by
  unfold note
  refine Yields.bindT Yields.rand.quiet fun r => Yields.bindT Yields.intFin fun j => Yields.ite (fun _ => .pure' trivial) fun _ =>
    Yields.ite (fun _ => Yields.bindT (bw_quiet _) fun _ => .pure' trivial) fun _ => Yields.unif.quiet

theorem improvise_quiet (B : Box D) (p : Par) (s : St D N) : Quiet C (improvise B p s) := Yields.tabMT fun i => note_quiet B p s i

/-- What one iteration does. -/
theorem wp_iter (B : Box D) (p : Par) (s : St D N) (xb : Vec D) (fxb : Fl) {g : Ghost (Vec D)} (hI : ∀ i, C.Fit g.b (s.pop i) (s.fit i))
    (hinc : Inc C xb fxb g) : (iter B p s xb fxb).wp C (fun r g' => (∀ i, C.Fit g'.b (r.1.pop i) (r.1.fit i)) ∧
      Inc C r.2.1 r.2.2 g' ∧ g'.c = g.c + 1) g := by
  simp only [iter, Prog.wp_bind']
  refine (improvise_quiet B p s).wp fun h _ => Yields.repair.wp fun h hh => ?_
  rw [Prog.wp_eval]
  refine ⟨hh, fun v hv => wp_argmaxIdx fun iw _ => ⟨?_, hinc.leq hv, rfl⟩⟩
  simp only
  split
  · exact aligned_update (fit_eval hI v) iw (.new hv)
  · exact fit_eval hI v

/-- The obligations of harmony search: `N` evaluations in the beginning, one per iteration. -/
theorem verified (B : Box D) (N : ℕ) (p : Par) : Verified (alg B N p) B.Mem true true (.exact N 1) := by
  refine ⟨fun C s b => ∀ i, C.Fit b (s.pop i) (s.fit i), fun C hG hent _ => ⟨fun s b h => forall₂_ofFn h, fun g hg => ?_, ?_⟩⟩
  · simp only [alg, init, Prog.wp_bind']
    exact wp_initArr hG hg fun r g' _ _ h3 h4 h5 => ⟨h3, h4, h5⟩
  · intro s xb fxb g hI hF hc
    exact Prog.wp_mono (fun r g' h => ⟨h.1, h.2.1.fit, h.2.1.eq, Cost.ok_exact h.2.2⟩) (wp_iter B p s xb fxb hI ⟨hF, hc⟩)

/-! ## C92: the bandwidth -/

omit [Arith] in
/-- **C92 fails for `HarmonySearchV1`**: with `0 < bw_min ≤ bw_max` the bandwidth never exceeds `bw_min`; only the signs of logarithm and exponential
function matter. -/
theorem C92_hsv1_false (fn : Fn → Fl → Fl) (hlog : ∀ q : ℚ, 0 < q → q ≤ 1 → ∃ l : ℚ, l ≤ 0 ∧ fn .log (.fin q) = .fin l)
    (hexp : ∀ q : ℚ, q ≤ 0 → ∃ e : ℚ, e ≤ 1 ∧ fn .exp (.fin q) = .fin e) (lo hi : ℚ) (h0 : 0 < lo) (h1 : lo ≤ hi) (v : TaskView)
    (hv : ∀ T, v.maxIters = some T → 0 < T) : letI := exactArith fn; bandwidth (.fin lo) (.fin hi) v ≤ .fin lo := by
  have hhi : 0 < hi := h0.trans_le h1
  obtain ⟨l, hl, e1⟩ := hlog (lo / hi) (by positivity) ((div_le_one hhi).2 h1)
  have key : ∃ q : ℚ, q ≤ 0 ∧ letI := exactArith fn; (Fl.fin l * Fl.ofNat (v.iters + 1) / limF v.maxIters : Fl) = .fin q := by
    rw [Exact.ofNat_fin, Exact.mul_fin]
    cases hT : v.maxIters with
    | none => exact ⟨0, le_rfl, Exact.div_none fn _⟩
    | some T =>
      refine ⟨_, ?_, Exact.div_some fn _ (hv T hT)⟩
      exact div_nonpos_of_nonpos_of_nonneg (mul_nonpos_of_nonpos_of_nonneg hl (by positivity)) (by positivity)
  obtain ⟨q, hq, e2⟩ := key
  obtain ⟨e, he, e3⟩ := hexp q hq
  have : @bandwidth (exactArith fn) (.fin lo) (.fin hi) v = .fin (lo * e) := by
    unfold bandwidth
    rw [Exact.div_fin fn _ _ hhi.ne']
    show Fl.mulX _ (fn .exp _) = _
    have e1' : @Arith.fn (exactArith fn) .log (.fin (lo / hi)) = .fin l := e1
    rw [e1', e2, e3]
    rfl
  rw [this, Fl.fin_le_fin]
  nlinarith

/-- The hypotheses on logarithm and exponential function are met by `x - 1` and `1 / (1 - x)`. -/
example : let fn : Fn → Fl → Fl := fun f v => match f, v with
      | .log, .fin q => .fin (q - 1)
      | .exp, .fin q => .fin (1 / (1 - q))
      | _, v => v
    (∀ q : ℚ, 0 < q → q ≤ 1 → ∃ l : ℚ, l ≤ 0 ∧ fn .log (.fin q) = .fin l) ∧ (∀ q : ℚ, q ≤ 0 → ∃ e : ℚ, e ≤ 1 ∧ fn .exp (.fin q) = .fin e) :=
  ⟨fun q _ h => ⟨q - 1, by linarith, rfl⟩, fun q h => ⟨1 / (1 - q), (div_le_one (by linarith)).2 (by linarith), rfl⟩⟩

end NiaPy.HS
