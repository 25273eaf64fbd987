import Verif.CollapseMore
import Verif.Algo.SHADE

/-!
# A collapsed population stays where it is: SHADE, L-SHADE and IL-SHADE

Besides the population these keep an archive of replaced individuals. Only its first `cnt` entries are ever used; the others are zeros or were dropped.
-/

namespace NiaPy
variable {X α : Type} {D : ℕ}

namespace Rests
variable {env : Env X} {p : X}

theorem permLt {n : ℕ} : Rests env p (Prog.perm n : Prog X (List ℕ)) fun l => ∀ i ∈ l, i < n :=
  ⟨fun w => ⟨.same rfl rfl rfl, fun l hl => by cases hl; exact fun i hi => List.mem_range.1 ((env.rng.perm_perm _ n).mem_iff.1 hi)⟩⟩

theorem sortRecs {val : α → Fl} {l : List α} : Rests env p (NiaPy.sortRecs val l : Prog X (List α)) fun r => ∀ a ∈ r, a ∈ l :=
  argsort.bindT fun ei => .pure' fun a ha => by
    obtain ⟨i, -, hi⟩ := List.mem_filterMap.1 ha
    exact List.mem_of_getElem? hi

end Rests

namespace SHADE
open DE JDE
variable [Arith] {p : Vec D} {env : Env (Vec D)} {opt : OptType}

/-- All individuals and all entries of the archive in use are at `p`. -/
structure At (p : Vec D) (s : St D) : Prop where
  pop : ∀ e ∈ s.pop, e.x = p
  arc : ∀ i < s.cnt, ∀ x, s.arc[i]? = some x → x = p

theorem pick_rests (n : ℕ) (ok : ℕ → Bool) : Rests env p (pick n ok : Prog (Vec D) ℕ) fun i => i < n := by
  refine Rests.permLt.bind' fun l hl => ?_
  split
  · exact .throw
  · rename_i a as h
    exact .pure' (hl a (List.mem_of_mem_filter (p := ok) (by rw [h]; simp)))

theorem cauchy_rests (loc gamma : Fl) (n : ℕ) : Rests env p (cauchy loc gamma n : Prog (Vec D) Fl) fun c => .fin 0 < c := by
  induction n with
  | zero => exact .throw
  | succ n ih => exact Rests.rand.bindT fun r => .ite (fun h => .pure' h) fun _ => ih

omit [Arith] in
theorem clip01_real {c : Fl} (h : .fin 0 < c) : (clip01 c).Real := by
  unfold clip01
  split
  · exact ⟨_, rfl⟩
  · split
    · exact ⟨_, rfl⟩
    · cases c with
      | fin q => exact ⟨q, rfl⟩
      | pinf => exact absurd (by decide) ‹¬ Fl.fin 1 < Fl.pinf›
      | ninf => exact absurd h (by decide)
      | nan => exact absurd h (by decide)

theorem earlyF_real (q : Par) (v : TaskView) {f : Fl} (h : f.Real) : (earlyF q v f).Real := by
  unfold earlyF
  repeat' split
  all_goals first | exact h | exact ⟨_, rfl⟩

/-- The scale factors are finite, whatever the memory contains. -/
theorem genParams_rests (q : Par) (v : TaskView) (hcr hf : List Fl) : Rests env p (genParams q v hcr hf : Prog (Vec D) SA) fun e => e.f.Real := by
  unfold genParams
  refine Rests.int.bindT fun mi => Rests.bindT (P := fun _ => True) ?_ fun cr => (cauchy_rests _ _ _).bind' fun f h => .pure' (earlyF_real q v (clip01_real h))
  unfold drawCR
  split
  · exact Rests.norm.any
  · exact .pure' trivial

omit [Arith] in
theorem row_at {α : Type} {P : α → Prop} {l : List α} {i : ℕ} (h : ∀ x, l[i]? = some x → P x) {a : α} (ha : row l i = .ok a) : P a := by
  unfold row at ha
  split at ha
  · cases ha
  · cases ha
    exact h _ ‹_›

omit [Arith] in
theorem points_at {l : List (Ind D SA)} (hl : ∀ e ∈ l, e.x = p) (i : ℕ) : ∀ x, (l.map (·.x))[i]? = some x → x = p := fun x hx => by
  obtain ⟨e, he, rfl⟩ := List.mem_map.1 (List.mem_of_getElem? hx)
  exact hl e he

theorem cross_rests (hc : Centre p) {B : Box D} (hB : B.NotOut p) {l : List (Ind D SA)} (hl : ∀ e ∈ l, e.x = p) {arc : List (Vec D)} {cnt : ℕ}
    (ha : ∀ i < cnt, ∀ x, arc[i]? = some x → x = p) (pnum : ℕ) (ic : Fin l.length) {e : SA} (he : e.f.Real) :
    Rests env p (cross B l arc cnt pnum ic e) fun y => y = p := by
  unfold cross
  refine Rests.int.bindT fun b => (pick_rests _ _).bindT fun r1 => (pick_rests _ _).bind' fun r2 hr2 => Rests.intFin.bindT fun j => ?_
  refine (Rests.ofExcept (P := fun x => x = p) fun x hx => row_at (points_at hl b) hx).bind' fun xb hxb => ?_
  refine (Rests.ofExcept (P := fun x => x = p) fun x hx => row_at (points_at hl r1) hx).bind' fun x1 hx1 => ?_
  refine (Rests.ofExcept (P := fun x => x = p) fun x hx => ?_).bind' fun x2 hx2 => ?_
  · unfold donor at hx
    split at hx
    · exact row_at (ha _ (by omega)) hx
    · exact row_at (points_at hl r2) hx
  · have hic : pts l ic = p := hl _ (l.get_mem ic)
    subst hxb
    rw [hx1, hx2, hic]
    refine (binomial_rests rfl (funext fun i => ?_)).bind' fun v hv => .pure' (funext fun i => ?_)
    · rw [hc.sub, hc.scale he, hc.add, hc.add]
    · subst hv
      simp only [parentMedium, if_neg (hB i).1, if_neg (hB i).2]

theorem evolve_rests (hc : Centre p) (hR : ∀ rng k, env.repairFn rng k p = p) {B : Box D} (hB : B.NotOut p) (q : Par) {s : St D} (hs : At p s) {l : List (Ind D SA)}
    (hl : ∀ e ∈ l, e.x = p) : Rests env p (evolve B q s l) fun new => ∀ i, (new i).x = p := by
  unfold evolve
  refine Rests.look.bindT fun v => (Rests.tabM fun _ => genParams_rests q v _ _).bind' fun ps hps => ?_
  refine (Rests.ofExcept (P := fun _ => True) fun _ _ => trivial).bindT fun pnum => (Rests.tabM fun i => cross_rests hc hB hl hs.arc pnum i (hps i)).bind' fun xs hxs => ?_
  exact .tabM (P := fun _ (e : Ind D SA) => e.x = p) fun i => (Rests.repair hR (hxs i)).bind' fun x hx => (Rests.eval hx).bindT fun v => .pure' hx

/-- Storing `p` in the archive. -/
theorem store_rests (size : ℤ) {a : List (Vec D) × ℕ} (ha : ∀ i < a.2, ∀ x, a.1[i]? = some x → x = p) :
    Rests env p (store size p a) fun a => ∀ i < a.2, ∀ x, a.1[i]? = some x → x = p := by
  unfold store
  refine .ite (fun _ => .pure' ha) fun _ => .ite (fun _ => .ite (fun _ => .pure' fun i hi x hx => ?_) fun _ => .throw) fun _ =>
    Rests.int.bindT fun r => .ite (fun _ => .pure' fun i hi x hx => ?_) fun _ => .throw
  · by_cases h : a.2 = i
    · subst h
      rw [List.getElem?_set_self (by assumption)] at hx
      exact (Option.some.inj hx).symm
    · rw [List.getElem?_set_ne h] at hx
      exact ha i (by simp only at hi; omega) x hx
  · by_cases h : r = i
    · subst h
      rw [List.getElem?_set_self (by assumption)] at hx
      exact (Option.some.inj hx).symm
    · rw [List.getElem?_set_ne h] at hx
      exact ha i hi x hx

theorem archive_rests (size : ℤ) {l : List (Ind D SA)} (hl : ∀ e ∈ l, e.x = p) (new : Fin l.length → Ind D SA) {a : List (Vec D) × ℕ}
    (ha : ∀ i < a.2, ∀ x, a.1[i]? = some x → x = p) : Rests env p (archive size l new a) fun a => ∀ i < a.2, ∀ x, a.1[i]? = some x → x = p :=
  .forFin _ ha fun i a ha => .ite (fun _ => by rw [show pts l i = p from hl _ (l.get_mem i)]; exact store_rests size ha) fun _ => .pure' ha

theorem survivors_at {l : List (Ind D SA)} (hl : ∀ e ∈ l, e.x = p) {new : Fin l.length → Ind D SA} (hn : ∀ i, (new i).x = p) : ∀ e ∈ survivors l new, e.x = p := by
  intro e he
  obtain ⟨i, rfl⟩ := List.mem_ofFn.1 he
  split
  · exact hn i
  · exact hl _ (l.get_mem i)

theorem post_rests (q : Par) {s : St D} (hs : At p s) : Rests env p (post q s) fun s' => At p s' := by
  unfold post
  refine .ite (fun _ => Rests.look.bindT fun v => .ite (fun _ => .throw) fun _ => ?_) fun _ => .pure' hs
  refine (Rests.ofExcept (P := fun _ => True) fun _ _ => trivial).bindT fun next => .ofExcept fun s' hs' => ?_
  unfold reduceTo at hs'
  split at hs'
  · cases hr : nextArc q next with
    | error e => rw [hr] at hs'; cases hs'
    | ok m =>
      rw [hr] at hs'; cases hs'
      exact ⟨fun e he => hs.pop e ((remove_sub _ _).mem he), fun i hi => hs.arc i (lt_of_lt_of_le hi (min_le_left _ _))⟩
  · cases hs'; exact hs

/-- **C99** for SHADE, L-SHADE and IL-SHADE: once the individuals and the archive are at `p`, which is in the box, they stay there, however the memories are filled. -/
theorem C99_shade (hc : Centre p) (hR : ∀ rng k, env.repairFn rng k p = p) {B : Box D} (hB : B.NotOut p) (q : Par) {s : St D} (hs : At p s) : Stuck env p (alg opt B q) s := by
  refine Settles.stuck (S := fun s : St D => At p s) ⟨fun s hs x hx => ?_, fun s fxb hs => ?_⟩ hs
  · obtain ⟨e, he, rfl⟩ := List.mem_map.1 hx
    exact hs.pop e he
  · refine Rests.sortRecs.bind' fun l hl => ?_
    have hl : ∀ e ∈ l, e.x = p := fun e he => hs.pop e (hl e he)
    refine (evolve_rests hc hR hB q hs hl).bind' fun new hn => (Rests.ofExcept (P := fun _ => True) fun _ _ => trivial).bindT fun size => ?_
    refine (archive_rests size hl new hs.arc).bind' fun a ha => ?_
    have hsv := survivors_at hl hn
    refine (best_rests hsv fxb).bind' ?_
    rintro ⟨xb, fxb'⟩ hb
    obtain rfl : xb = p := hb
    have hle : At xb (learn q (successes l new) { s with pop := survivors l new, arc := a.1, cnt := a.2 }) := by
      refine ⟨?_, ?_⟩
      · rw [learn_pop]; exact hsv
      · rw [(learn_arc ..).1, (learn_arc ..).2]; exact ha
    exact (post_rests q hle).bind' fun s' hs' => (best_rests hs'.pop fxb').bind' fun b hb => .pure' ⟨hs', hb⟩

end SHADE

namespace Collapsed

/-- Four individuals at `pt` and an archive of two copies of `pt` and two zeros, in exact arithmetic and in double precision. -/
def shade : SHADE.St 1 := ⟨List.replicate 4 ⟨pt, .fin 1, ⟨.fin (1 / 2), .fin (1 / 2)⟩⟩, [.fin (1 / 2)], [.fin (1 / 2)], 0, [pt, pt, fun _ => .fin 0, fun _ => .fin 0], 2, .fin (1 / 2)⟩

theorem shade_at : SHADE.At pt shade := by
  refine ⟨fun e he => ?_, fun i hi x hx => ?_⟩
  · rw [List.eq_of_mem_replicate he]
  · match i, hi with
    | 0, _ => exact (Option.some.inj hx).symm
    | 1, _ => exact (Option.some.inj hx).symm

example : letI := Ex.arith; Stuck env pt (SHADE.alg .minimization (Ex.box 1) ⟨4, .fin 1, .fin (1 / 2), 1, true, some (.fin (1 / 4)), 10⟩) shade :=
  letI := Ex.arith
  SHADE.C99_shade (centre_exact _ real) repair (by decide +kernel) _ shade_at
example : letI := Float64.float64 fun _ x => x; Stuck env pt (SHADE.alg .minimization (Ex.box 1) ⟨4, .fin 1, .fin (1 / 2), 1, false, none, 10⟩) shade :=
  letI := Float64.float64 fun _ x => x
  SHADE.C99_shade (centre_float64 _ double) repair (by decide +kernel) _ shade_at

/-- The rest of that run does call the objective. -/
example : letI := Ex.arith; (((SHADE.alg .minimization (Ex.box 1) ⟨4, .fin 1, .fin (1 / 2), 1, false, none, 10⟩).loop 0 4 shade pt (.fin 1)).run env
    (World.init .minimization)).2.calls.length = 12 := by decide +kernel

/-- It is not enough that the population has collapsed: another point in the archive still leads away from `pt`. -/
theorem C99_shade_archive_false :
    ¬ (letI := Ex.arith; Stuck env pt (SHADE.alg .minimization (Ex.box 1) ⟨4, .fin 1, .fin (1 / 2), 1, false, none, 10⟩)
      (⟨List.replicate 4 ⟨pt, .fin 1, ⟨.fin (1 / 2), .fin (1 / 2)⟩⟩, [.fin (1 / 2)], [.fin (1 / 2)], 0, [fun _ => .fin 0, fun _ => .fin 0], 2, .fin (1 / 2)⟩ : SHADE.St 1)) :=
  not_stuck (by decide +kernel)

end Collapsed
end NiaPy
