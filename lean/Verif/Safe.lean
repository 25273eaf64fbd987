import Verif.Total
import Verif.Algo.BA
import Verif.Algo.CS
import Verif.Algo.FPA
import Verif.Algo.GSA
import Verif.Algo.GWO
import Verif.Algo.SCA
import Verif.Algo.ABC
import Verif.Algo.BEA
import Verif.Algo.BFO
import Verif.Algo.FA
import Verif.Algo.GSO
import Verif.Algo.GA

/-!
# Runs that do not raise

For each algorithm, the parameters for which its runs raise no exception (`Alg.Safe`).
-/

namespace NiaPy
variable [Arith] {D N : ℕ} {env : Env (Vec D)} {B : Box D}

/-- The constant `sigma` of the Lévy flights (util/random.py:20-22), about 0.7, is not negative. -/
abbrev SigmaLaw [Arith] : Prop := ¬ (levySigma : Fl) < .fin 0

/-- The bat algorithm. -/
theorem BA.safe (hE : env.Calm) (hB : B.Proper) (hN : 0 < N) (p : Par) : (alg B N p).Safe env := by
  refine ⟨fun _ => True, .bind' (Total.defaultNumpyInit hE hB hN) fun r hr => .pure' ⟨trivial, first_arr hN hr⟩, fun s xb fxb _ => ?_⟩
  show Ends env (iter p s xb fxb)
  unfold iter step candidate localSearch
  ends

/-- Cuckoo search. -/
theorem CS.safe (hE : env.Calm) (hB : B.Proper) (hs : SigmaLaw) (hN : 0 < N) (pa : Fl) : (alg B N pa).Safe env := by
  refine ⟨fun _ => True, .bind' (Total.defaultNumpyInit hE hB hN) fun r hr => .pure' ⟨trivial, first_arr hN hr⟩, fun s xb fxb _ => ?_⟩
  show Ends env (iter pa s xb fxb)
  unfold iter getCuckoos emptyNests levyRows
  ends

/-- The flower pollination algorithm. -/
theorem FPA.safe (hE : env.Calm) (hB : B.Proper) (hs : SigmaLaw) (hN : 2 ≤ N) (p : Fl) : (alg B N p).Safe env := by
  refine ⟨fun _ => True, .bind' (Total.defaultNumpyInit hE hB (by omega)) fun r hr => .pure' ⟨trivial, first_arr (by omega) hr⟩,
    fun s xb fxb _ => ?_⟩
  show Ends env (iter p s xb fxb)
  unfold iter step candidate
  ends

/-- The gravitational search algorithm. -/
theorem GSA.safe (hE : env.Calm) (hB : B.Proper) (hN : 0 < N) (p : Par) : (alg B N p).Safe env := by
  refine ⟨fun _ => True, .bind' (Total.defaultNumpyInit hE hB hN) fun r hr => .pure' ⟨trivial, first_arr hN hr⟩, fun s xb fxb _ => ?_⟩
  show Ends env (iter p s xb fxb)
  have hm : ∀ f : Fin N → Fl, Ends env (minOf f : Prog (Vec D) Fl) := fun f =>
    (Total.argminRec (by rw [Ne, List.ofFn_eq_nil_iff]; omega)).ends
  refine .bindT (hm _) fun _ => .bindT (hm _) fun _ => ?_
  ends

/-- The grey wolf optimizer. -/
theorem GWO.safe (hE : env.Calm) (hB : B.Proper) (hN : 3 ≤ N) : (alg B N).Safe env := by
  refine ⟨fun _ => True, .bind' (Total.defaultNumpyInit hE hB (by omega)) fun r hr => ?_, fun s xb fxb _ => ?_⟩
  · refine .bindT Total.sortIdx.ends fun si => ?_
    rw [dif_pos (by omega)]
    exact .pure' ⟨trivial, first_arr (by omega) hr⟩
  · refine .bindT Total.look.ends fun v => .bindT (Total.moveEval hE fun i => ?_).ends fun _ => .pure' trivial
    unfold move approach
    ends

/-- The sine cosine algorithm. -/
theorem SCA.safe (hE : env.Calm) (hB : B.Proper) (hN : 0 < N) (p : Par) (hr : unifErr p.rMin p.rMax = none)
    (hpi : unifErr 0 (Fl.ofNat 2 * piF) = none) : (alg B N p).Safe env := by
  refine ⟨fun _ => True, .bind' (Total.defaultNumpyInit hE hB hN) fun r hr => .pure' ⟨trivial, first_arr hN hr⟩, fun s xb fxb _ => ?_⟩
  show Ends env (iter p s xb fxb)
  unfold iter
  ends

theorem unifErr_one : unifErr (-1) 1 = none := by decide

/-- Loops over indices: `range(a, b)` must lie in the array. -/
theorem Total.rangeLoop {σ : Type} {X : Type} {env : Env X} {n a b : ℕ} {f : Fin n → σ → Prog X σ} {s : σ} (J : σ → Prop) (hb : b ≤ n) (h0 : J s)
    (hstep : ∀ i s, J s → Total env (f i s) J) : Total env (NiaPy.rangeLoop n a b f s) J := by
  refine .forFin J h0 fun i s hs => ?_
  rw [dif_pos (by have := i.2; omega)]
  exact hstep _ _ hs

/-- The artificial bee colony algorithm. -/
theorem ABC.safe (hE : env.Calm) (hB : B.Proper) (hD : 0 < D) (hN : 0 < N) (opt : OptType) (limit fuel : ℕ) :
    (alg opt B N limit fuel).Safe env := by
  have hrnd : Ends env (Indiv.random opt B) := .bindT (Total.unifVec hB).ends fun _ => (Total.indivEvaluate hE).ends
  have hsc : ∀ i (s : Loc D N), Ends env (scout opt B i s) := fun i s => .bindT hrnd fun _ => .pure' trivial
  have hc : ∀ (x y : Vec D) k, Ends env (candidate x y k) := fun x y k =>
    .bindT (Total.unif unifErr_one).ends fun _ => (Total.indivEvaluate hE).ends
  have hemp : ∀ i (s : Loc D N), Ends env (employed opt B limit i s) := fun i s => by
    have := i.2
    refine .bindT (.scaleIdx hD) fun k => .bindT (.scaleIdx (by omega)) fun n => .bindT (hc _ _ _) fun y => ?_
    exact .ite (fun _ => .pure' trivial) fun _ => .ite (fun _ => hsc _ _) fun _ => .pure' trivial
  have hnb : ∀ (i : Fin (N / 2)) fuel, Ends env (neighbor i fuel : Prog (Vec D) _) := fun i fuel => by
    have := i.2
    induction fuel with
    | zero => exact .fuel
    | succ fuel ih => exact .bindT (.scaleIdx (by omega)) fun n => .ite (fun _ => ih) fun _ => .pure' trivial
  have honl : ∀ last i (s : Loc D N), Ends env (onlooker opt B limit fuel last i s) := fun last i s => by
    refine .bindT (.scaleIdx hD) fun k => .bindT (hnb _ _) fun n => .bindT (hc _ _ _) fun y => ?_
    exact .ite (fun _ => .pure' trivial) fun _ => .ite (fun _ => hsc _ _) fun _ => .pure' trivial
  have hons : ∀ prob last n t i (s : Loc D N), Ends env (onlookers opt B limit fuel prob last n t i s) := by
    intro prob last n
    induction n with
    | zero => exact fun _ _ _ => .fuel
    | succ n ih =>
      intro t i s
      refine .ite (fun _ => .bindT Total.rand.ends fun r => .bindT ?_ fun _ => ih _ _ _) fun _ => .pure' trivial
      exact .ite (fun _ => .bindT (honl _ _ _) fun _ => .pure' trivial) fun _ => .pure' trivial
  refine ⟨fun _ => True, .bind' (Total.defaultIndividualInit hE hB) fun r hr => .pure' ⟨trivial, first_arr hN hr⟩, fun s xb fxb _ => ?_⟩
  refine .bindT (.forFin _ trivial fun i s _ => hemp i s) fun s => .bindT ?_ fun _ => .pure' trivial
  split
  · exact hons _ _ _ _ _ _
  · exact .pure' trivial

/-- `ngh * 0.95` is finite and not negative if `ngh` is. -/
def BEA.DecayLaw [Arith] : Prop := ∀ q : ℚ, 0 ≤ q → ∃ q' : ℚ, 0 ≤ q' ∧ Fl.fin q * lit 95 100 = Fl.fin q'

/-- The bees algorithm. -/
theorem BEA.safe (hE : env.Calm) (hB : B.Proper) (hl : DecayLaw) (hD : 0 < D) (hN : 0 < N) (p : Par) (he : p.e ≤ N) (hm : p.m ≤ N)
    (hngh : ∃ q : ℚ, 0 ≤ q ∧ p.ngh = .fin q) : (alg B N p).Safe env := by
  have hsort : ∀ s : St D N, Total env (sorted s) fun s' => s'.ngh = s.ngh ∧ ((∀ i, s.fit i ≠ .nan) → ∀ i, s'.fit i ≠ .nan) := fun s =>
    .bindT Total.sortIdx.ends fun si => .pure' ⟨rfl, fun h i => h _⟩
  have hu : ∀ a : Fl, (∃ q : ℚ, 0 ≤ q ∧ a = .fin q) → unifErr (-a) a = none := by
    rintro _ ⟨q, hq, rfl⟩
    show (if -q ≤ q then none else some PyErr.valueError) = none
    rw [if_pos (by linarith)]
  have hsite : ∀ n i (s : St D N), (∃ q : ℚ, 0 ≤ q ∧ s.ngh = .fin q) → Total env (site n i s) fun s' => ∃ q : ℚ, 0 ≤ q ∧ s'.ngh = .fin q := by
    intro n i s hs
    refine .bind' (Total.forFin (fun b => b.1 = none → b.2 = Fl.pinf) (fun _ => rfl) fun k b hb => ?_) fun b hb => ?_
    · refine .bindT (.bindT (.intFin hD) fun _ => .bindT (Total.unif (hu _ hs)).ends fun _ => .bindT .repair fun _ =>
        .bindT (Total.eval hE).ends fun _ => .pure' trivial) fun r => .pure' ?_
      split
      · nofun
      · exact hb
    · refine .ite (fun hlt => ?_) fun _ => .pure' hs
      rcases b with ⟨_ | y, bc⟩
      · rw [hb rfl] at hlt
        exact absurd hlt (Fl.not_pinf_lt _)
      · exact .pure' hs
  refine ⟨fun s : St D N => ∃ q : ℚ, 0 ≤ q ∧ s.ngh = .fin q, .bind' (Total.defaultNumpyInit hE hB hN) fun r hr => ?_, fun s xb fxb hs => ?_⟩
  · exact (hsort _).mono fun s' h => ⟨by simp only [h.1]; exact hngh, first_arr hN (h.2 hr)⟩
  · refine .bind' (.rangeLoop _ he hs fun i s hs => hsite _ i s hs) fun s hs => .bind' (.rangeLoop _ hm hs fun i s hs => hsite _ i s hs) fun s hs =>
      .bind' (.rangeLoop (fun s => ∃ q : ℚ, 0 ≤ q ∧ s.ngh = .fin q) le_rfl hs fun i s hs => ?_) fun s hs => .bind' (hsort s) fun s' h => ?_
    · exact .bindT (Total.unifVec hB).ends fun _ => .bindT (Total.eval hE).ends fun _ => .pure' hs
    · rw [dif_pos hN]
      refine .pure' ?_
      obtain ⟨q, hq, h1⟩ := hs
      obtain ⟨q', hq', h2⟩ := hl q hq
      exact ⟨q', hq', by simp only [h.1, h1, h2]⟩

/-- Bacterial foraging. -/
theorem BFO.safe (hE : env.Calm) (hB : B.Proper) (hN : 0 < N) (p : Par) (k0 j0 : ℕ) : (alg B N p k0 j0).Safe env := by
  have hstep : ∀ dir i (s : Loc D), i < s.cells.length → Total env (swimStep p dir i s) fun r => r.1.cells.length = s.cells.length := by
    intro dir i s hi
    unfold swimStep
    rw [List.getElem?_eq_getElem hi]
    exact .bindT .repair fun _ => .bindT (Total.eval hE).ends fun _ => .pure' (by simp)
  have hswim : ∀ dir i jl n (s : Loc D), i < s.cells.length → Total env (swim p dir i jl n s) fun r => r.cells.length = s.cells.length := by
    intro dir i jl n
    induction n with
    | zero => exact fun s hi => .bind' (hstep dir i s hi) fun r hr => .pure' hr
    | succ n ih =>
      exact fun s hi => .bind' (hstep dir i s hi) fun r hr => .ite (fun _ => .pure' hr) fun _ => (ih r.1 (hr ▸ hi)).mono fun _ h => h.trans hr
  have hchem : ∀ i (s : Loc D), i < s.cells.length → Total env (chemotaxis p i s) fun r => r.cells.length = s.cells.length := by
    intro i s hi
    unfold chemotaxis
    rw [List.getElem?_eq_getElem hi]
    refine .bindT (.bindT (Total.unifVec fun _ => unifErr_one).ends fun _ => .pure' trivial) fun dir => ?_
    exact (hswim _ _ _ _ _ (by simpa using hi)).mono fun _ h => by simpa using h
  have helim : ∀ i (s : Loc D), i < s.cells.length → Total env (eliminate B p i s) fun r => r.cells.length = s.cells.length := by
    intro i s hi
    refine .bindT Total.rand.ends fun r => .ite (fun _ => ?_) fun _ => .pure' rfl
    rw [List.getElem?_eq_getElem hi]
    exact .bindT Total.randVec.ends fun _ => .bindT (Total.eval hE).ends fun _ => .pure' (by simp)
  refine ⟨fun _ => True, .bind' (Total.defaultNumpyInit hE hB hN) fun r hr => .pure' ⟨trivial, ?_⟩, fun s xb fxb _ => ?_⟩
  · have := first_arr hN (pop := r.1) hr
    simpa [alg, List.map_ofFn, Function.comp_def] using this
  · refine .bind' (.forList (fun l : Loc D => l.cells.length = s.cells.length) rfl fun i hi l hl =>
      (hchem i l (by rw [hl]; simpa using hi)).mono fun _ h => h.trans hl) fun l hl => ?_
    refine .bindT (.ite (fun _ => .bindT (.bindT Total.argsort.ends fun _ => .pure' trivial) fun _ => .pure' trivial) fun _ => .pure' trivial) fun c => ?_
    refine .ite (fun _ => .bindT (Total.forList (fun l : Loc D => l.cells.length = c.1.length) rfl fun i hi l hl =>
      (helim i l (by rw [hl]; simpa using hi)).mono fun _ h => h.trans hl).ends fun _ => .pure' trivial) fun _ => .pure' trivial

/-- The firefly algorithm. -/
theorem FA.safe (hE : env.Calm) (hB : B.Proper) (hN : 0 < N) (p : Par) : (alg B N p).Safe env := by
  refine ⟨fun _ => True, .bind' (Total.defaultNumpyInit hE hB hN) fun r hr => .pure' ⟨trivial, first_arr hN hr⟩, fun s xb fxb _ => ?_⟩
  show Ends env (iter B p s xb fxb)
  unfold iter step move
  ends

/-- Glowworm swarm optimization and its variants. -/
theorem GSO.safe (hE : env.Calm) (hB : B.Proper) (hN : 0 < N) (p : Par D) : (alg B N p).Safe env := by
  refine ⟨fun _ => True, .bind' (Total.defaultNumpyInit hE hB hN) fun r hr => .pure' ⟨trivial, first_arr hN hr⟩, fun s xb fxb _ => ?_⟩
  have hm : ∀ pb, Ends env (moveSelect pb : Prog (Vec D) (Fin N)) := fun pb => .bindT Total.rand.ends fun r => by
    split
    · exact .pure' trivial
    · exact .intFin hN
  show Ends env (iter B p s xb fxb)
  refine .bindT (.tabMT fun i => hm _) fun _ => ?_
  ends

/-- The tournament has between 1 and `N` members, and the standard deviations of the Uros mutation are not negative. -/
def GA.Par.Valid (p : GA.Par) (B : Box D) (N : ℕ) : Prop :=
  (∀ ts, p.sel = .tournament ts → 0 < ts ∧ ts ≤ N) ∧ ∀ mr, p.mutation = .uros mr → ∀ d, ¬ mr * (B.hi d - B.lo d) < .fin 0

/-- The genetic algorithm. -/
theorem GA.safe (hE : env.Calm) (hB : B.Proper) (hD : 0 < D) (hN : 0 < N) (opt : OptType) (p : Par) (hp : p.Valid B N) (fuel : ℕ) :
    (alg opt B N p fuel).Safe env := by
  have hsel : ∀ (pop : Fin N → Indiv D) ic xb, Ends env (p.sel.run pop ic xb) := fun pop ic xb => by
    cases hs : p.sel with
    | tournament ts =>
      obtain ⟨h0, h1⟩ := hp.1 ts hs
      exact .bindT (Total.choiceFin h1).ends fun c => .bindT (Total.argminRec (by rw [Ne, List.finRange_eq_nil_iff]; omega)).ends fun _ => .pure' trivial
    | roulette => exact .bindT Total.rand.ends fun _ => .pure' trivial
  have hoth : ∀ (ic : Fin N) fuel io, Ends env (otherLoop ic fuel io : Prog (Vec D) _) := fun ic fuel => by
    induction fuel with
    | zero => exact fun io => .ite (fun _ => .fuel) fun _ => .pure' trivial
    | succ fuel ih => exact fun io => .ite (fun _ => .bindT (.intFin hN) fun io => ih io) fun _ => .pure' trivial
  have hcross : ∀ (pop : Fin N → Indiv D) ic, Ends env (p.cross.run fuel pop ic) := fun pop ic => by
    cases p.cross <;> refine .bindT (hoth _ _ _) fun io => ?_
    all_goals ends
  have hcoord : ∀ mr j d old, Ends env (mutCoord B mr j d old) := fun mr j d old =>
    .bindT Total.rand.ends fun r => .ite (fun _ => (Total.unif (hB d)).ends) fun _ => .pure' trivial
  have hmut : ∀ (pop : Fin N → Indiv D) ic, Ends env (p.mutation.run B pop ic) := fun pop ic => by
    cases hm : p.mutation with
    | uniform mr => exact .bindT (.intFin hD) fun j => .tabMT fun d => hcoord _ _ _ _
    | uros mr => exact .bindT (.tabMT fun d => .norm (hp.2 mr hm d)) fun v => .pure' trivial
    | creep mr => exact .bindT (.intFin hN) fun _ => .bindT (.intFin hD) fun j => .tabMT fun d => hcoord _ _ _ _
  refine ⟨fun _ => True, (Total.defaultIndividualInit hE hB).mono fun r hr => ⟨trivial, first_arr hN hr⟩, fun s xb fxb _ => ?_⟩
  refine Total.forFin (fun _ => True) trivial fun i a _ => .bindT (.bindT (hsel _ _ _) fun _ => .bindT (hcross _ _) fun _ => .bindT (hmut _ _) fun _ =>
    .bindT (Total.indivEvaluate hE).ends fun _ => .pure' trivial) fun _ => .pure' trivial

end NiaPy
