import Verif.Ranges
import Verif.Charts
import Verif.Algo.BA
import Verif.Algo.BAT
import Verif.Algo.BFO
import Verif.Algo.CA
import Verif.Algo.CLONALG
import Verif.Algo.CRO
import Verif.Algo.CS
import Verif.Algo.CSO
import Verif.Algo.FPA
import Verif.Algo.GA
import Verif.Algo.HS
import Verif.Algo.JDE
import Verif.Algo.KH
import Verif.Algo.LOAShape
import Verif.Algo.MBO
import Verif.Algo.MKE
import Verif.Algo.PSOVariants

/-!
# Rates and probabilities (C112)

A rate of 0 switches an operator off, a rate of 1 makes it happen every time. What is said about one step holds for every environment, state
and generator; draws of `random()` are at least 0 and below 1.
-/

namespace NiaPy
variable [Arith] {D N : ℕ} {env : Env (Vec D)}

omit [Arith] in
theorem Fl.draw_lt {r q : Fl} (h1 : r < .fin 1) (h : .fin 1 ≤ q) : r < q := Fl.lt_of_lt_of_le h1 h

omit [Arith] in
theorem Fl.not_draw_lt {r q : Fl} (h0 : .fin 0 ≤ r) (h : q ≤ .fin 0) : ¬ r < q := Fl.not_lt_of_le (Fl.le_trans h h0)

omit [Arith] in
theorem Fl.not_lt_draw {r q : Fl} (h1 : r < .fin 1) (h : .fin 1 ≤ q) : ¬ q < r := Fl.not_lt_of_le (Fl.le_of_lt (Fl.lt_of_lt_of_le h1 h))

omit [Arith] in
theorem Fl.lt_draw {r q : Fl} (h0 : .fin 0 ≤ r) (h : q < .fin 0) : q < r := Fl.lt_of_lt_of_le h h0

/-- A draw of `random()`. -/
def Draw (r : Fl) : Prop := .fin 0 ≤ r ∧ r < .fin 1

omit [Arith] in
theorem Post.draw {X : Type} {env : Env X} : Post env (Prog.rand : Prog X Fl) Draw := .rand fun _ h0 h1 => ⟨h0, h1⟩

/-! ### What the rates do as documented -/

namespace JDE
open DE

/-- C112 for `tao1` and `tao2`: with rates of 0 an individual keeps its control parameters, with rates of 1 it draws new ones. -/
theorem C112_tao (p : Par) (e : SA) : Post env (adapt p e) fun a =>
    (p.tao1 ≤ .fin 0 → a.f = e.f) ∧ (.fin 1 ≤ p.tao1 → ∃ r, Draw r ∧ a.f = p.fLo + r * (p.fUp - p.fLo)) ∧
    (p.tao2 ≤ .fin 0 → a.cr = e.cr) ∧ (.fin 1 ≤ p.tao2 → Draw a.cr) := by
  refine .bind' (P := fun f => (p.tao1 ≤ .fin 0 → f = e.f) ∧ (.fin 1 ≤ p.tao1 → ∃ r, Draw r ∧ f = p.fLo + r * (p.fUp - p.fLo)))
    (.bind' .draw fun c hc => LOA.Post.ite (fun h => .bind' .draw fun r hr => .pure' ⟨fun h' => absurd h (Fl.not_draw_lt hc.1 h'), fun _ => ⟨r, hr, rfl⟩⟩)
      fun h => .pure' ⟨fun _ => rfl, fun h' => absurd (Fl.draw_lt hc.2 h') h⟩) fun f hf => ?_
  refine .bind' (P := fun cr => (p.tao2 ≤ .fin 0 → cr = e.cr) ∧ (.fin 1 ≤ p.tao2 → Draw cr))
    (.bind' .draw fun c hc => LOA.Post.ite (fun h => Post.draw.mono fun r hr => ⟨fun h' => absurd h (Fl.not_draw_lt hc.1 h'), fun _ => hr⟩)
      fun h => .pure' ⟨fun _ => rfl, fun h' => absurd (Fl.draw_lt hc.2 h') h⟩) fun cr hcr => .pure' ⟨hf.1, hf.2, hcr⟩

end JDE

namespace BAT

/-- C112 for `tao_1` and `tao_2` of the self-adaptive bat algorithms. -/
theorem C112_tao (lo hi tao old : Fl) : Post env (adapt lo hi tao old) fun v =>
    (tao ≤ .fin 0 → v = old) ∧ (.fin 1 ≤ tao → ∃ r, Draw r ∧ v = lo + r * (hi - lo)) :=
  .bind' .draw fun c hc => LOA.Post.ite (fun h => .bind' .draw fun r hr => .pure' ⟨fun h' => absurd h (Fl.not_draw_lt hc.1 h'), fun _ => ⟨r, hr, rfl⟩⟩)
    fun h => .pure' ⟨fun _ => rfl, fun h' => absurd (Fl.draw_lt hc.2 h') h⟩

/-- C112 for the loudness of `AdaptiveBatAlgorithm`: a solution that is not worse is always accepted if the loudness is 1, and never if it is 0. -/
theorem C112_loudness (pop : Fin N → Vec D) (fit : Fin N → Fl) (i : Fin N) (l : Fl) (y : Vec D) :
    Post env (judge pop fit i (fun r => decide (r < l)) y) fun a =>
      Possible env y a.2.2 ∧ (.fin 1 ≤ l → a.2.2 ≤ fit i → a.1 = Function.update pop i y ∧ a.2.1 = Function.update fit i a.2.2) ∧
      (l ≤ .fin 0 → a.1 = pop ∧ a.2.1 = fit) ∧ (¬ a.2.2 ≤ fit i → a.1 = pop ∧ a.2.1 = fit) := by
  refine .bind' (.eval fun v hv => hv) fun v hv => ?_
  refine .bind' (P := fun acc => (.fin 1 ≤ l → v ≤ fit i → acc = true) ∧ (l ≤ .fin 0 → acc = false) ∧ (¬ v ≤ fit i → acc = false)) ?_ fun acc h => .pure' ?_
  · split
    · refine .bind' .draw fun r hr => .pure' ⟨fun h _ => decide_eq_true (Fl.draw_lt hr.2 h), fun h => decide_eq_false (Fl.not_draw_lt hr.1 h), fun h => absurd ‹_› h⟩
    · exact .pure' ⟨fun _ h => absurd h ‹_›, fun _ => rfl, fun _ => rfl⟩
  · cases acc
    · exact ⟨hv, fun h1 h2 => (nomatch h.1 h1 h2), fun _ => ⟨rfl, rfl⟩, fun _ => ⟨rfl, rfl⟩⟩
    · exact ⟨hv, fun _ _ => ⟨rfl, rfl⟩, fun h1 => (nomatch h.2.1 h1), fun h1 => (nomatch h.2.2 h1)⟩

/-- C112 for `pulse_rate` of `AdaptiveBatAlgorithm`: with 1 there is no local search. -/
theorem C112_pulse (ls : Local D N) (best : Vec D) (pop : Fin N → Vec D) (i : Fin N) (vi : Vec D) (l pulse : Fl) (h : .fin 1 ≤ pulse) :
    Post env (candidate ls best pop i vi l pulse) fun y => ∃ rng k, y = env.repairFn rng k fun j => pop i j + vi j :=
  .bind' .draw fun r hr => LOA.Post.ite (fun h' => absurd h' (Fl.not_lt_draw hr.2 h)) fun _ => .repair fun rng k => ⟨rng, k, rfl⟩

end BAT

namespace BFO

/-- C112 for `prob_elimination`: with 0 no bacterium is eliminated, with 1 every one is and a new one takes its place somewhere in the search
space. -/
theorem C112_elimination (B : Box D) (p : Par) (i : ℕ) (s : Loc D) : Post env (eliminate B p i s) fun s' =>
    (p.probElimination ≤ .fin 0 → s' = s) ∧
    (.fin 1 ≤ p.probElimination → ∃ c, s.cells[i]? = some c ∧ ∃ u : Vec D, (∀ j, Draw (u j)) ∧ ∃ v,
      Possible env (fun j => B.lo j + u j * (B.hi j - B.lo j)) v ∧
      s'.cells = s.cells.set i { c with x := fun j => B.lo j + u j * (B.hi j - B.lo j), f := v }) := by
  refine .bind' .draw fun r hr => LOA.Post.ite (fun h => ?_) fun h => .pure' ⟨fun _ => rfl, fun h' => absurd (Fl.draw_lt hr.2 h') h⟩
  split
  · exact LOA.Post.throw
  · rename_i c hc
    refine .bind' (.tabM fun _ => .draw) fun u hu => .bind' (.eval fun v hv => hv) fun v hv => .pure' ⟨fun h' => absurd h (Fl.not_draw_lt hr.1 h'), fun _ => ?_⟩
    exact ⟨c, hc, u, hu, v, hv, rfl⟩

end BFO

namespace KH

/-- C112 for the crossover of krill: with a rate of 0 nothing is exchanged, with 1 everything. -/
theorem C112_crossover (x xo : Vec D) (cr : Fl) : Post env (crossover x xo cr) fun y => (cr ≤ .fin 0 → y = x) ∧ (.fin 1 ≤ cr → y = xo) :=
  .bind' (.tabM fun _ => .draw) fun _ hr => .pure' ⟨fun h => funext fun j => if_neg (Fl.not_draw_lt (hr j).1 h), fun h => funext fun j => if_pos (Fl.draw_lt (hr j).2 h)⟩

end KH

namespace GA

/-- C112 for the mutation of a coordinate in `GeneticAlgorithm`: with 1 it is always drawn anew, with 0 only the coordinate `j` is. -/
theorem C112_mutCoord (B : Box D) (mr : Fl) (j d : Fin D) (old : Fl) : Post env (mutCoord B mr j d old) fun v =>
    (mr ≤ .fin 0 → d ≠ j → v = old) ∧ (.fin 1 ≤ mr ∨ d = j → B.lo d ≤ v ∧ v ≤ B.hi d) :=
  .bind' .draw fun _ hr => LOA.Post.ite
    (fun h => .unif fun v h1 h2 => ⟨fun h' hd => (h.elim (fun h => absurd h (Fl.not_draw_lt hr.1 h')) fun h => absurd h hd), fun _ => ⟨h1, h2⟩⟩)
    fun h => .pure' ⟨fun _ _ => rfl, fun h' => absurd (h'.imp (Fl.draw_lt hr.2) id) h⟩

/-- C112 for `uniform_mutation`: with a rate of 0 at most one coordinate changes, with 1 all coordinates are drawn anew. -/
theorem C112_mutation (B : Box D) (mr : Fl) (pop : Fin N → Indiv D) (ic : Fin N) : Post env (Mut.run (.uniform mr) B pop ic) fun y =>
    (mr ≤ .fin 0 → ∃ j, ∀ d, d ≠ j → y d = (pop ic).x d) ∧ (.fin 1 ≤ mr → ∀ d, B.lo d ≤ y d ∧ y d ≤ B.hi d) :=
  .bind' .any fun j _ => (Post.tabM fun d => C112_mutCoord B mr j d _).mono fun _ h => ⟨fun h' => ⟨j, fun d => (h d).1 h'⟩, fun h' d => (h d).2 (.inl h')⟩

end GA

namespace CSO

/-- C112 for `mixture_ratio`: as many cats are in tracing mode as the ratio says. -/
theorem C112_mixture (p : Par) : Post env (modes p N) fun m => (Finset.univ.filter fun i => m i = true).card = floorNat (Fl.ofNat N * p.mixture) := by
  refine .bind' (.yields Yields.choiceFin) fun idx hi => .pure' ?_
  have e : (Finset.univ.filter fun i : Fin N => decide (∃ j, idx j = i) = true) = Finset.univ.image idx := by
    ext i
    simp
  show (Finset.univ.filter fun i : Fin N => decide (∃ j, idx j = i) = true).card = _
  rw [e, Finset.card_image_of_injective _ hi, Finset.card_univ, Fintype.card_fin]
  rfl

end CSO

namespace MKE

/-- C112 for `population_rate`: as many individuals become monkey kings as the rate says, and none moves by that. -/
theorem C112_kings (p : Par) (pop : Fin N → Ind D) (h : ∀ i, (pop i).king = false) : Post env (crown p pop) fun r =>
    (∀ i, (r i).x = (pop i).x ∧ (r i).f = (pop i).f) ∧ (Finset.univ.filter fun i => (r i).king = true).card = floorNat (p.rate * Fl.ofNat N) :=
  .yields (crown_yields p pop h)

end MKE

namespace PSO

/-- C112 for `p0` of opposition-based PSO: with 0 there is no opposition-based learning and the swarm moves, with 1 only the population and its
opposites are considered. -/
theorem C112_p0 (B : Box D) (p : OPar D) (s : OSt D N) (xb : Vec D) (fxb : Fl) : Post env (iterO B p s xb fxb) fun a =>
    (.fin 1 ≤ p.p0 → a.1.sw.v = s.sw.v ∧ ∀ i, ∃ k, a.1.sw.pop i = s.sw.pop k ∨ a.1.sw.pop i = opposite B (s.sw.pop k)) := by
  refine .bind' .draw fun r hr => LOA.Post.ite (fun h => ?_) fun h => ?_
  · refine .bind' (P := fun l => ∀ e ∈ l, ∃ k, e.1 = s.sw.pop k ∨ e.1 = opposite B (s.sw.pop k)) ?_ fun l hl => ?_
    · refine .bind' Post.evalRecs fun o ho => (Post.yields Yields.sortRecs).mono fun l hl e he => ?_
      have := hl.1.mem_iff.1 he
      rcases List.mem_append.1 this with h | h
      · obtain ⟨k, rfl⟩ := (List.mem_ofFn' _ _).1 h
        exact ⟨k, .inl rfl⟩
      · obtain ⟨k, hk⟩ := (List.mem_ofFn' _ _).1 (ho e h)
        exact ⟨k, .inr hk.symm⟩
    · split
      · exact LOA.Post.throw
      · rename_i e l
        refine .pure' fun _ => ⟨rfl, fun i => ?_⟩
        show ∃ k, (((e :: l)[(i : ℕ)]?).getD (s.sw.pop i, s.sw.fit i)).1 = s.sw.pop k ∨
          (((e :: l)[(i : ℕ)]?).getD (s.sw.pop i, s.sw.fit i)).1 = opposite B (s.sw.pop k)
        cases hq : (e :: l)[(i : ℕ)]? with
        | none => exact ⟨i, .inl rfl⟩
        | some v => exact hl v (List.mem_of_getElem? hq)
  · exact Post.any.mono fun _ _ h' => absurd (Fl.draw_lt hr.2 h') h

end PSO

namespace LOA

/-- C112 for `mutation_factor`: with 0 a coordinate of a cub is never drawn anew, with 1 always. -/
theorem C112_mutation (lo hi m v : Fl) : Post env (mutate lo hi m v) fun u => (m ≤ .fin 0 → u = v) ∧ (.fin 1 ≤ m → lo ≤ u ∧ u ≤ hi) :=
  .bind' .draw fun _ hr => Post.ite (fun h => .unif fun _ h1 h2 => ⟨fun h' => absurd h (Fl.not_draw_lt hr.1 h'), fun _ => ⟨h1, h2⟩⟩)
    fun h => .pure' ⟨fun _ => rfl, fun h' => absurd (Fl.draw_lt hr.2 h') h⟩

/-- C112 for `mating_factor`: with 0 no cubs are born. -/
theorem C112_mating (B : Box D) (p : Par) (h : Herd D) (lions : List ℕ) (pride : ℕ) (hm : p.mating ≤ .fin 0) :
    Post env (cubs B p h lions pride) fun a => a = (h, []) := by
  refine Post.forAll (fun a => a = (h, [])) rfl fun k _ a ha => .bind' .draw fun r hr => Post.ite (fun h' => absurd h' (Fl.not_draw_lt hr.1 hm)) fun _ => .pure' ha

end LOA

namespace CA

/-- C112 for `visibility`: a camel finds an oasis only if the draw exceeds one minus the visibility. In exact arithmetic a camel that sees
nothing never finds one. -/
theorem C112_visibility [ExactOps] (p : Par) (hp : p.visibility = .fin 0) (c : Camel D) : Post env (oasis p c) fun c' => c' = c := by
  refine .bind' .draw fun r hr => .pure' (if_neg fun h => ?_)
  have e : (1 : Fl) - p.visibility = .fin 1 := by
    rw [hp, ExactOps.sub, Exact.one_fin]
    exact congrArg Fl.fin (by norm_num)
  rw [e] at h
  exact Fl.not_lt_of_le (Fl.le_of_lt hr.2) h.1

end CA

namespace DE

/-- C112 for `omega` of the aging differential evolution: with 0 nobody dies. -/
theorem C112_omega (N : ℕ) (p : AgePar) (hp : p.omega ≤ .fin 0) (l : List (Ind D ℕ)) : Post env (decrement N p l) fun l' => l' = l := by
  refine .bind' .any fun v _ => ?_
  dsimp only
  refine LOA.Post.ite (fun _ => .pure' rfl) fun _ => .bind' .any fun ni _ => ?_
  refine .bind' (P := fun k => k = (List.finRange l.length).map fun i => some (l.get i)) ?_ fun k hk => .pure' ?_
  · generalize List.finRange l.length = is
    induction is with
    | nil => exact .pure' rfl
    | cons i is ih =>
      refine .bind' (P := fun a => a = some (l.get i)) ?_ fun a ha => .bind' ih fun r hr => .pure' (by rw [ha, hr]; rfl)
      exact LOA.Post.ite (fun _ => .bind' .draw fun r hr => .pure' (if_pos (Fl.le_trans hp hr.1))) fun _ => .pure' rfl
  · rw [hk, List.filterMap_map]
    simp

end DE

/-! ### Switches between two moves -/

namespace BA

/-- C112 for `pulse_rate`: with a rate of 0 bats only fly, with 1 they only search around the best solution. -/
theorem C112_pulse (best xi vi : Vec D) (l pulse : Fl) : Post env (candidate best xi vi l pulse) fun y =>
    (pulse ≤ .fin 0 → ∃ rng k, y = env.repairFn rng k fun j => xi j + vi j) ∧
    (.fin 1 ≤ pulse → ∃ (z : Vec D) (rng : _) (k : _), y = env.repairFn rng k fun j => best j + lit 1 10 * z j * l) := by
  refine .bind' .draw fun r hr => LOA.Post.ite (fun h => ?_) fun h => ?_
  · exact .bind' .any fun z _ => .repair fun rng k => ⟨fun h' => absurd h (Fl.not_draw_lt hr.1 h'), fun _ => ⟨z, rng, k, rfl⟩⟩
  · exact .repair fun rng k => ⟨fun _ => ⟨rng, k, rfl⟩, fun h' => absurd (Fl.draw_lt hr.2 h') h⟩

theorem step_loud_stays (p : Par) {l : Fl} (q : Fl) (hl : .fin 1 ≤ l) (i : Fin N) (s : St D N) (xb : Vec D) (fxb : Fl) :
    Post env (step p l q i (s, xb, fxb)) fun a => a.1.pop = s.pop ∧ a.1.fit = s.fit := by
  refine .bind' .any fun r _ => ?_
  dsimp only
  refine .bind' .any fun y _ => .bind' .any fun f _ => .bind' (P := fun acc => acc = false) ?_ fun acc h => .pure' ?_
  · split
    · exact .bind' .draw fun r hr => .pure' (decide_eq_false (Fl.not_lt_draw hr.2 hl))
    · exact .pure' rfl
  · subst h
    exact ⟨rfl, rfl⟩

/-- C112 is false of the loudness of `BatAlgorithm`: the test is the wrong way round (`AdaptiveBatAlgorithm` has `<`, see `BAT.C112_loudness`),
a loudness of 1 or more means that no bat ever accepts a solution. -/
theorem C112_loudness_reversed (p : Par) (s : St D N) (hl : .fin 1 ≤ s.loud * p.alpha) (xb : Vec D) (fxb : Fl) :
    Post env (iter p s xb fxb) fun a => a.1.pop = s.pop ∧ a.1.fit = s.fit := by
  refine .bind' .any fun v _ => ?_
  dsimp only
  refine .bind' (Post.eachFin (fun a : St D N × Vec D × Fl => a.1.pop = s.pop ∧ a.1.fit = s.fit) ⟨rfl, rfl⟩ fun i a h => ?_) fun a h => .pure' h
  obtain ⟨s', xb', fxb'⟩ := a
  exact (step_loud_stays p _ hl i s' xb' fxb').mono fun a h' => ⟨h'.1.trans h.1, h'.2.trans h.2⟩

/-- With a loudness and an `alpha` of 1. -/
example : letI := NiaPy.Ex.arith; .fin 1 ≤ (Fl.fin 1 * Fl.fin 1 : Fl) := by decide +kernel

end BA

namespace FPA

/-- C112 for the switch probability `p`: with 1 there is only local pollination, along the difference of two different flowers; with a negative
one only global pollination, along the difference to the best. -/
theorem C112_switch (p : Fl) (s : St D N) (i : Fin N) (xb : Vec D) : Post env (candidate p s i xb) fun y =>
    (.fin 1 ≤ p → ∃ a b r, a ≠ b ∧ Draw r ∧ ∃ rng k, y = env.repairFn rng k fun d => s.sols i d + r * (s.pop a d - s.pop b d)) ∧
    (p < .fin 0 → ∃ (l : Vec D) (rng : _) (k : _), y = env.repairFn rng k fun d => s.pop i d + l d * (s.pop i d - xb d)) := by
  refine .bind' .draw fun r hr => LOA.Post.ite (fun h => ?_) fun h => ?_
  · exact .bind' .any fun l _ => .repair fun rng k => ⟨fun h' => absurd h (Fl.not_lt_draw hr.2 h'), fun _ => ⟨l, rng, k, rfl⟩⟩
  · refine .bind' (.yields Yields.choiceFin) fun jk hjk => .bind' .draw fun r' hr' => .repair fun rng k => ⟨fun _ => ?_, fun h' => absurd (Fl.lt_draw hr.1 h') h⟩
    exact ⟨jk 0, jk 1, r', hjk.ne (by decide), hr', rng, k, rfl⟩

end FPA

namespace HS

/-- C112 for `r_accept` and `r_pa`: with `r_accept` at 1 no note is taken from the memory as it is; with both at 1 the memory is not used and every
note is a random one; with `r_accept` below 0 every note is one of the memory. -/
theorem C112_note (B : Box D) (p : Par) (s : St D N) (i : Fin D) : Post env (note B p s i) fun v =>
    (.fin 1 ≤ p.rAccept → p.rPa < .fin 0 → ∃ j b, v = s.pop j i + b) ∧
    (.fin 1 ≤ p.rAccept → .fin 1 ≤ p.rPa → B.lo i ≤ v ∧ v ≤ B.hi i) ∧ (p.rAccept < .fin 0 → ∃ j, v = s.pop j i) := by
  refine .bind' .draw fun r hr => .bind' .any fun j _ => LOA.Post.ite (fun h => ?_) fun h => LOA.Post.ite (fun h2 => ?_) fun h2 => ?_
  · exact .pure' ⟨fun h' => absurd h (Fl.not_lt_draw hr.2 h'), fun h' => absurd h (Fl.not_lt_draw hr.2 h'), fun _ => ⟨j, rfl⟩⟩
  · exact .bind' .any fun b _ => .pure' ⟨fun _ _ => ⟨j, b, rfl⟩, fun _ h' => absurd h2 (Fl.not_lt_draw hr.2 h'), fun h' => absurd (Fl.lt_draw hr.1 h') h⟩
  · exact .unif fun v h3 h4 => ⟨fun _ h' => absurd (Fl.lt_draw hr.1 h') h2, fun _ _ => ⟨h3, h4⟩, fun h' => absurd (Fl.lt_draw hr.1 h') h⟩

end HS

/-! ### Rates that work the wrong way round -/

namespace CRO

/-- C112 is false of `mutation_rate` in brooding: with a rate of 1 the coral is not mutated at all. -/
theorem C112_brooding_reversed (B : Box D) (p : Fl) (x : Vec D) : Post env (brood B p x) fun y =>
    (.fin 1 ≤ p → ∃ rng k, y = env.repairFn rng k x) ∧
    (p ≤ .fin 0 → ∃ u : Vec D, (∀ d, Draw (u d)) ∧ ∃ rng k, y = env.repairFn rng k fun d => B.lo d + (B.hi d - B.lo d) * u d) := by
  refine .bind' (P := fun y => (.fin 1 ≤ p → y = x) ∧ (p ≤ .fin 0 → ∀ d, ∃ u, Draw u ∧ y d = B.lo d + (B.hi d - B.lo d) * u)) ?_ fun y hy => .repair fun rng k => ?_
  · refine (Post.tabM (P := fun d v => (.fin 1 ≤ p → v = x d) ∧ (p ≤ .fin 0 → ∃ u, Draw u ∧ v = B.lo d + (B.hi d - B.lo d) * u)) fun d => ?_).mono fun y h =>
      ⟨fun h' => funext fun d => (h d).1 h', fun h' d => (h d).2 h'⟩
    exact .bind' .draw fun r hr => LOA.Post.ite (fun h => .pure' ⟨fun _ => rfl, fun h' => absurd h (Fl.not_draw_lt hr.1 h')⟩)
      fun h => .bind' .draw fun u hu => .pure' ⟨fun h' => absurd (Fl.draw_lt hr.2 h') h, fun _ => ⟨u, hu, rfl⟩⟩
  · refine ⟨fun h => ⟨rng, k, by rw [hy.1 h]⟩, fun h => ?_⟩
    choose u hu e using hy.2 h
    exact ⟨u, hu, rng, k, by rw [← funext e]⟩

/-- C112 is false of `mutation_rate` where larvae settle: with a rate of 1 they stay, with 0 they stay too, because the rate is the step as
well (in exact arithmetic). -/
theorem C112_settling_reversed (p f : Fl) (x : Vec D) : Post env (move p f x) fun y =>
    (.fin 1 ≤ p → ∃ rng k, y = env.repairFn rng k x) ∧
    (p ≤ .fin 0 → ∃ u : Vec D, (∀ d, Draw (u d)) ∧ ∃ rng k, y = env.repairFn rng k fun d => x d + f * u d) := by
  refine .bind' (P := fun y => (.fin 1 ≤ p → y = x) ∧ (p ≤ .fin 0 → ∀ d, ∃ u, Draw u ∧ y d = x d + f * u)) ?_ fun y hy => .repair fun rng k => ?_
  · refine (Post.tabM (P := fun d v => (.fin 1 ≤ p → v = x d) ∧ (p ≤ .fin 0 → ∃ u, Draw u ∧ v = x d + f * u)) fun d => ?_).mono fun y h =>
      ⟨fun h' => funext fun d => (h d).1 h', fun h' d => (h d).2 h'⟩
    exact .bind' .draw fun r hr => LOA.Post.ite (fun h => .pure' ⟨fun _ => rfl, fun h' => absurd h (Fl.not_draw_lt hr.1 h')⟩)
      fun h => .bind' .draw fun u hu => .pure' ⟨fun h' => absurd (Fl.draw_lt hr.2 h') h, fun _ => ⟨u, hu, rfl⟩⟩
  · refine ⟨fun h => ⟨rng, k, by rw [hy.1 h]⟩, fun h => ?_⟩
    choose u hu e using hy.2 h
    exact ⟨u, hu, rng, k, by rw [← funext e]⟩

omit [Arith] in
/-- C112 is false of `crossover_rate`: with a rate of 1 no coral takes anything from another one. -/
theorem C112_crossover_reversed {n : ℕ} (p : Fl) (hp : .fin 1 ≤ p) (pop : Fin n → Vec D) : Post env (crossover p pop) fun pop' => pop' = pop := by
  refine Post.eachFin (fun q => q = pop) rfl fun i q hq => ?_
  subst hq
  refine .bind' (Post.tabM (P := fun d v => v = q ⟨i, by have := i.2; omega⟩ d) fun d => .bind' .draw fun r hr => .pure' (if_pos (Fl.draw_lt hr.2 hp))) fun v hv => .pure' ?_
  rw [funext hv, Function.update_eq_self]

end CRO

namespace CLONALG

omit [Arith] in
/-- C112 is false of the mutation rate of CLONALG, `exp(-mutation_factor * fitness)`: with a rate of 1 no bit is flipped. -/
theorem C112_mutation_reversed {b : ℕ} (w : Bits D b) (rate : Fl) : Post env (mutate w rate) fun w' =>
    (.fin 1 ≤ rate → w' = w) ∧ (rate < .fin 0 → w' = fun j k => !w j k) := by
  refine (Post.tabM (P := fun j (v : Fin b → Bool) => ∀ k, (.fin 1 ≤ rate → v k = w j k) ∧ (rate < .fin 0 → v k = !w j k)) fun j =>
    Post.tabM (P := fun k (v : Bool) => (.fin 1 ≤ rate → v = w j k) ∧ (rate < .fin 0 → v = !w j k)) fun k =>
      .bind' .draw fun r hr => .pure' ⟨fun h => if_neg (Fl.not_lt_draw hr.2 h), fun h => if_pos (Fl.lt_draw hr.1 h)⟩).mono fun w' h => ?_
  exact ⟨fun h' => funext fun j => funext fun k => (h j k).1 h', fun h' => funext fun j => funext fun k => (h j k).2 h'⟩

end CLONALG

namespace CS

/-- C112 is false of `pa`, the probability of a nest being abandoned: with 1 no nest is abandoned (in exact arithmetic, for finite solutions). -/
theorem C112_abandon_reversed [ExactOps] (pa : Fl) (hp : .fin 1 ≤ pa) (pop : Fin N → Vec D) (hf : ∀ k d, ∃ q, pop k d = .fin q) :
    Post env (emptyNests pa pop) fun y => ∀ k, ∃ rng n, y k = env.repairFn rng n (pop k) := by
  refine .bind' (Post.tabM fun _ => Post.tabM fun _ => .draw) fun a ha => .bind' .any fun i _ => .bind' .any fun j _ => .bind' .draw fun r hr => ?_
  refine Post.tabM (P := fun k y => ∃ rng n, y = env.repairFn rng n (pop k)) fun k => .repair fun rng n => ⟨rng, n, congrArg _ (funext fun d => ?_)⟩
  beta_reduce
  rw [if_neg (Fl.not_lt_draw (ha k d).2 hp)]
  obtain ⟨q, hq⟩ := hf k d
  obtain ⟨q1, h1⟩ := hf (i k) d
  obtain ⟨q2, h2⟩ := hf (j k) d
  obtain ⟨h0, hlt⟩ := hr
  cases r with
  | fin r =>
    rw [hq, h1, h2, ExactOps.sub, ExactOps.mul, ExactOps.mul, ExactOps.add]
    show Fl.fin (q + r * (q1 + -q2) * ((0 : ℕ) : ℚ)) = _
    simp
  | nan => simp at h0
  | pinf => simp at hlt
  | ninf => simp at h0

end CS

namespace KH

/-- C112 is false of `mutation_rate` of krill herd: the mutation takes place where it should not. -/
theorem C112_mutate_reversed (x xb mr : Fl) : Post env (mutate1 x xb mr : Prog (Vec D) Fl) fun v =>
    (.fin 1 ≤ mr → v = x) ∧ (mr ≤ .fin 0 → ∃ r, Draw r ∧ v = xb + r) :=
  .bind' .draw fun _ hr => LOA.Post.ite (fun h => .pure' ⟨fun _ => rfl, fun h' => absurd h (Fl.not_draw_lt hr.1 h')⟩)
    fun h => .bind' .draw fun u hu => .pure' ⟨fun h' => absurd (Fl.draw_lt hr.2 h') h, fun _ => ⟨u, hu, rfl⟩⟩

/-- C112 is false of `mutation_rate`: with a rate of 0 every coordinate of every krill is replaced by that of the best krill plus a number between
0 and 1, whatever the krill were about to do (in exact arithmetic, for finite objective values). -/
theorem C112_mutation_reversed [ExactOps] (B : Box D) (p : Par D) (hp : p.mr = .fin 0) (s : St D N) (food : Vec D) (foodF : Fl) (ib iw : Fin N) (v : TaskView)
    (q : Fin N → ℚ) (hq : ∀ i, s.fit i = .fin (q i)) (hb : ∀ i, q ib ≤ q i) :
    Post env (newHerd B p s food foodF ib iw v) fun a => ∀ i j, ∃ r, Draw r ∧ a.1 i j = s.pop ib j + r := by
  refine .bind' .any fun ind _ => ?_
  dsimp only
  refine .bind' .any fun dif _ => .bind' .any fun h2 _ => .bind' (Post.tabM fun i => Post.tabM fun j => (C112_mutate_reversed _ _ _).mono fun v hv => hv.2) fun h3 hh => .pure' fun i j =>
    hh i j ?_
  have hw : q ib ≤ q iw := hb iw
  rw [hp, getK, hq i, hq ib, hq iw]
  have he : ((1 : ℕ) : ℚ) / ((4503599627370496 : ℕ) : ℚ) > 0 := by norm_num
  simp only [ExactOps.sub, ExactOps.add, ExactOps.div, eps, lit]
  generalize ((1 : ℕ) : ℚ) / ((4503599627370496 : ℕ) : ℚ) = e at *
  have ht : ((1 : ℕ) : ℚ) / ((10 ^ 31 : ℕ) : ℚ) > 0 := by positivity
  generalize ((1 : ℕ) : ℚ) / ((10 ^ 31 : ℕ) : ℚ) = t at *
  have hd : q iw + -q ib + e ≠ 0 := by linarith
  have hk : (q i + -q ib + e) / (q iw + -q ib + e) + t ≠ 0 := by
    have : 0 ≤ (q i + -q ib + e) / (q iw + -q ib + e) := div_nonneg (by linarith [hb i]) (by linarith)
    linarith
  show Fl.divX (.fin 0) (Fl.addX (Fl.divX (.fin (q i + -q ib + e)) (.fin (q iw + -q ib + e))) (.fin t)) ≤ .fin 0
  have e1 : Fl.divX (.fin (q i + -q ib + e)) (.fin (q iw + -q ib + e)) = .fin ((q i + -q ib + e) / (q iw + -q ib + e)) := by simp [Fl.divX, hd]
  rw [e1]
  show Fl.divX (.fin 0) (.fin ((q i + -q ib + e) / (q iw + -q ib + e) + t)) ≤ .fin 0
  have e2 : Fl.divX (.fin 0) (.fin ((q i + -q ib + e) / (q iw + -q ib + e) + t)) = .fin 0 := by simp [Fl.divX, hk]
  rw [e2]
  exact Fl.le_refl (by simp)

end KH

/-- Rates of 0 and 1 are within the hypotheses of the theorems, the rate of one half is in neither. -/
example : Fl.fin 0 ≤ .fin 0 ∧ Fl.fin 1 ≤ .fin 1 ∧ ¬ Fl.fin (1 / 2) ≤ .fin 0 ∧ ¬ Fl.fin 1 ≤ .fin (1 / 2) := by decide +kernel

/-- Two krill with different objective values, for `KH.C112_mutation_reversed`. -/
example : ∃ (s : KH.St 1 2) (q : Fin 2 → ℚ), (∀ i, s.fit i = .fin (q i)) ∧ (∀ i, q 0 ≤ q i) ∧ s.fit 0 ≠ s.fit 1 :=
  ⟨⟨fun i _ => .fin i, fun i => .fin i, fun _ _ => 0, fun _ _ => 0⟩, fun i => i, fun _ => rfl, by decide, by decide⟩

/-- A coordinate that is replaced although the rate is 0. -/
example : letI := NiaPy.Ex.arith
    (match ((KH.mutate1 (.fin 5) (.fin 1) (.fin 0) : Prog (Vec 1) Fl).run NiaPy.Ex.env2 (World.init .minimization)).1 with
    | .ok v => decide (v ≠ .fin 5)
    | .error _ => false) = true := by decide +kernel

/-- Nests for `CS.C112_abandon_reversed`. -/
example : ∃ pop : Fin 2 → Vec 1, (∀ k d, ∃ q, pop k d = .fin q) ∧ pop 0 ≠ pop 1 :=
  ⟨fun k _ => .fin k, fun k _ => ⟨k, rfl⟩, fun h => absurd (congrFun h 0) (by decide)⟩

end NiaPy
