import Verif.Rates
import Verif.Algo.ABC
import Verif.Algo.BEA
import Verif.Algo.FOA
import Verif.Algo.FSS
import Verif.Algo.FA
import Verif.Algo.GWO
import Verif.Algo.SA
import Verif.Algo.FWA

/-!
# The neighbourhoods of moves (C113)

How far a candidate may be from where it comes from, before it is repaired. Arithmetic is exact and coordinates are finite.
-/

namespace NiaPy
variable [Arith] {D N : ℕ} {env : Env (Vec D)}

/-- A vector of finite coordinates. -/
def Finites (x : Vec D) : Prop := ∀ j, ∃ q : ℚ, x j = .fin q

/-- `a` and `b` are finite and at most `d` apart. -/
def Within (d : ℚ) (a b : Fl) : Prop := ∃ p q : ℚ, a = .fin p ∧ b = .fin q ∧ |p - q| ≤ d

/-- At most `k` coordinates differ. -/
def Apart (k : ℕ) (x y : Vec D) : Prop := ∃ s : Finset (Fin D), s.card ≤ k ∧ ∀ j ∉ s, y j = x j

/-- What is repaired and evaluated. -/
def Comes (env : Env (Vec D)) (x y : Vec D) : Prop := ∃ rng k, x = env.repairFn rng k y

omit [Arith] in
theorem Draw.fin {r : Fl} (h : Draw r) : ∃ q : ℚ, r = .fin q ∧ 0 ≤ q ∧ q < 1 := by
  obtain ⟨h0, h1⟩ := h
  cases r with
  | fin q => exact ⟨q, rfl, by simpa using h0, by simpa using h1⟩
  | nan => simp at h0
  | pinf => simp at h1
  | ninf => simp at h0

omit [Arith] in
theorem Fl.fin_between {lo hi : ℚ} {r : Fl} (h0 : .fin lo ≤ r) (h1 : r ≤ .fin hi) : ∃ q : ℚ, r = .fin q ∧ lo ≤ q ∧ q ≤ hi := by
  cases r with
  | fin q => exact ⟨q, rfl, by simpa using h0, by simpa using h1⟩
  | nan => simp at h0
  | pinf => simp at h1
  | ninf => simp at h0

variable [ExactOps]

namespace ExactOps
theorem add_fin (a b : ℚ) : (Fl.fin a + Fl.fin b : Fl) = .fin (a + b) := ExactOps.add _ _
theorem sub_fin (a b : ℚ) : (Fl.fin a - Fl.fin b : Fl) = .fin (a - b) := (ExactOps.sub _ _).trans (congrArg Fl.fin (sub_eq_add_neg a b).symm)
theorem mul_fin (a b : ℚ) : (Fl.fin a * Fl.fin b : Fl) = .fin (a * b) := ExactOps.mul _ _
theorem div_fin (a b : ℚ) (hb : b ≠ 0) : (Fl.fin a / Fl.fin b : Fl) = .fin (a / b) := (ExactOps.div _ _).trans (by simp [Fl.divX, hb])
end ExactOps

open ExactOps

/-! ### One coordinate -/

namespace ABC

/-- C113 for the artificial bee colony: a candidate differs in one coordinate from the food source, by no more than the source does from the
neighbour there. -/
theorem C113_candidate (xs xn : Vec D) (k : Fin D) (h1 : Finites xs) (h2 : Finites xn) : Post env (candidate xs xn k) fun y => ∃ z,
    Comes env y.x z ∧ Possible env y.x y.f ∧ (∀ j, j ≠ k → z j = xs j) ∧ ∃ a b : ℚ, xs k = .fin a ∧ xn k = .fin b ∧ Within |a - b| (z k) (xs k) := by
  refine .bind' (P := fun u => ∃ q : ℚ, u = .fin q ∧ |q| ≤ 1) (.unif fun u h0 h1 => ?_) fun u hu => ?_
  · have e1 : (-1 : Fl) = .fin (-1) := by rw [Exact.one_fin]; rfl
    rw [e1] at h0
    rw [Exact.one_fin] at h1
    obtain ⟨q, rfl, h⟩ := Fl.fin_between h0 h1
    exact ⟨q, rfl, abs_le.2 h⟩
  · obtain ⟨q, rfl, hq⟩ := hu
    obtain ⟨a, ha⟩ := h1 k
    obtain ⟨b, hb⟩ := h2 k
    refine .bind' (P := fun y => Comes env y (Function.update xs k (xs k + .fin q * (xs k - xn k)))) (.repair fun rng k => ⟨rng, k, rfl⟩) fun y hy =>
      .bind' (.eval fun v hv => hv) fun v hv => .pure' ⟨_, hy, hv, fun j hj => Function.update_of_ne hj _ _, a, b, ha, hb, a + q * (a - b), a, ?_, ha, ?_⟩
    · rw [Function.update_self, ha, hb, sub_fin, mul_fin, add_fin]
    · rw [add_sub_cancel_left, abs_mul]
      exact mul_le_of_le_one_left (abs_nonneg _) hq

end ABC

namespace BEA

/-- C113 for the bees algorithm: a bee dances at a distance of at most `ngh` in one coordinate. -/
theorem C113_beeDance (x : Vec D) (hx : Finites x) (n : ℚ) : Post env (beeDance x (.fin n)) fun r => ∃ z, Comes env r.1 z ∧ Possible env r.1 r.2 ∧
    ∃ k, (∀ j, j ≠ k → z j = x j) ∧ Within n (z k) (x k) := by
  refine .bind' .any fun k _ => .bind' (P := fun u => ∃ q : ℚ, u = .fin q ∧ |q| ≤ n) (.unif fun u h0 h1 => ?_) fun u hu => ?_
  · obtain ⟨q, rfl, h⟩ := Fl.fin_between (lo := -n) h0 h1
    exact ⟨q, rfl, abs_le.2 h⟩
  · obtain ⟨q, rfl, hq⟩ := hu
    obtain ⟨a, ha⟩ := hx k
    refine .bind' (P := fun y => Comes env y (Function.update x k (x k + .fin q))) (.repair fun rng k => ⟨rng, k, rfl⟩) fun y hy =>
      .bind' (.eval fun v hv => hv) fun v hv => .pure' ⟨_, hy, hv, k, fun j hj => Function.update_of_ne hj _ _, a + q, a, ?_, ha, ?_⟩
    · rw [Function.update_self, ha, add_fin]
    · rwa [add_sub_cancel_left]

end BEA

/-! ### Some coordinates -/

namespace FOA

omit [Arith] [ExactOps] in
theorem setAt_apart {k : ℕ} (idx : Fin k → Fin D) (v x : Vec D) : Apart k x (setAt idx v x) := by
  classical
  refine ⟨Finset.univ.image idx, Finset.card_image_le.trans (by simp), fun j hj => if_neg ?_⟩
  rintro ⟨i, rfl⟩
  exact hj (Finset.mem_image.2 ⟨i, Finset.mem_univ _, rfl⟩)

/-- C113 for local seeding of the forest optimization algorithm: at most `local_seeding_changes` coordinates change, each by at most a fifth of the upper bound. -/
theorem C113_localSeed (B : Box D) (p : Par) (x : Vec D) (hx : Finites x) (hh : Finites B.hi) : Post env (localSeed B p x) fun y => ∃ z,
    Comes env y z ∧ Apart p.localChanges x z ∧ ∀ j, ∃ h : ℚ, B.hi j = .fin h ∧ Within (|h| / 5) (z j) (x j) := by
  refine .bind' .any fun idx _ => .bind' (P := fun u => ∀ j, ∃ h q : ℚ, B.hi j = .fin h ∧ u j = .fin q ∧ |q| ≤ |h| / 5) ?_ fun u hu => ?_
  · refine Post.tabM (P := fun j u => ∃ h q : ℚ, B.hi j = .fin h ∧ u = .fin q ∧ |q| ≤ |h| / 5) fun j => .unif fun u h0 h1 => ?_
    obtain ⟨h, hj⟩ := hh j
    have e : dx B j = .fin (|h| / 5) := by
      unfold dx
      rw [hj, Exact.ofNat_fin]
      show Fl.fin |h| / Fl.fin ((5 : ℕ) : ℚ) = _
      rw [div_fin _ _ (by norm_num)]
      norm_num
    rw [e] at h1 h0
    obtain ⟨q, rfl, hq⟩ := Fl.fin_between (lo := -(|h| / 5)) h0 h1
    exact ⟨h, q, hj, rfl, abs_le.2 hq⟩
  · refine .repair fun rng k => ⟨_, ⟨rng, k, rfl⟩, setAt_apart _ _ _, fun j => ?_⟩
    obtain ⟨h, q, hj, hq, hle⟩ := hu j
    obtain ⟨a, ha⟩ := hx j
    refine ⟨h, hj, ?_⟩
    unfold setAt
    split
    · exact ⟨a + q, a, by beta_reduce; rw [ha, hq, add_fin], ha, by rwa [add_sub_cancel_left]⟩
    · exact ⟨a, a, ha, ha, by rw [sub_self, abs_zero]; positivity⟩

/-- C113 is false of local seeding where the upper bound is zero: seeds fall where their tree stands, whatever the width of the search space. -/
theorem C113_localSeed_false (B : Box D) (p : Par) (x : Vec D) (hx : Finites x) (hh : ∀ j, B.hi j = .fin 0) :
    Post env (localSeed B p x) fun y => Comes env y x := by
  refine (C113_localSeed B p x hx fun j => ⟨0, hh j⟩).mono fun y ⟨z, h1, _, h3⟩ => ?_
  have : z = x := funext fun j => by
    obtain ⟨h, hj, a, b, ha, hb, hab⟩ := h3 j
    rw [hh j] at hj
    cases hj
    simp only [abs_zero, zero_div] at hab
    rw [ha, hb, sub_eq_zero.1 (abs_nonpos_iff.1 hab)]
  rwa [this] at h1

omit [ExactOps] in
/-- C113 for global seeding: at most `global_seeding_changes` coordinates change, to values within the bounds. -/
theorem C113_globalSeed (B : Box D) (p : Par) (x : Vec D) : Post env (globalSeed B p x) fun z =>
    Apart p.globalChanges x z ∧ ∀ j, z j = x j ∨ B.lo j ≤ z j ∧ z j ≤ B.hi j := by
  refine .bind' .any fun idx _ => .bind' (P := fun u => ∀ j, B.lo j ≤ u j ∧ u j ≤ B.hi j) (Post.tabM (P := fun j u => B.lo j ≤ u ∧ u ≤ B.hi j) fun j => .unif fun u h0 h1 => ⟨h0, h1⟩) fun u hu =>
    .pure' ⟨setAt_apart _ _ _, fun j => ?_⟩
  unfold setAt
  split
  · exact .inr (hu j)
  · exact .inl rfl

end FOA

namespace FWA

/-- C113 for the explosions of fireworks: fewer than `D` coordinates change, all by the same amount, at most the amplitude. -/
theorem C113_explode (amp : ℚ) (x : Vec D) (hx : Finites x) : Post env (explode (.fin amp) x) fun y => ∃ s : Finset (Fin D), s.card < D ∧
    (∀ j ∉ s, y j = x j) ∧ ∃ q : ℚ, |q| ≤ |amp| ∧ ∀ j ∈ s, ∃ a : ℚ, x j = .fin a ∧ y j = .fin (a + q) := by
  classical
  refine .bind' .any fun z _ => .bind' (P := fun u => ∃ q : ℚ, u = .fin q ∧ |q| ≤ 1) (.unif fun u h0 h1 => ?_) fun u hu => .pure' ?_
  · have e1 : (-1 : Fl) = .fin (-1) := by rw [Exact.one_fin]; rfl
    rw [e1] at h0
    rw [Exact.one_fin] at h1
    obtain ⟨q, rfl, h⟩ := Fl.fin_between h0 h1
    exact ⟨q, rfl, abs_le.2 h⟩
  · obtain ⟨q, rfl, hq⟩ := hu
    obtain ⟨m, z⟩ := z
    have hs : ∀ j, (j ∈ Finset.univ.image z → ∃ k, z k = j ∧ scatter z (fun k => x (z k) + .fin amp * .fin q) x j = x (z k) + .fin amp * .fin q) ∧
        (j ∉ Finset.univ.image z → scatter z (fun k => x (z k) + .fin amp * .fin q) x j = x j) := fun j => by
      unfold scatter
      cases hf : (List.finRange m.1).find? fun k => decide (z k = j) with
      | some k => exact ⟨fun _ => ⟨k, by simpa using List.find?_some hf, rfl⟩, fun h => absurd (Finset.mem_image.2 ⟨k, Finset.mem_univ _, by simpa using List.find?_some hf⟩) h⟩
      | none =>
        refine ⟨fun h => ?_, fun _ => rfl⟩
        obtain ⟨k, -, hk⟩ := Finset.mem_image.1 h
        exact absurd (decide_eq_true hk) (by simpa using List.find?_eq_none.1 hf k (List.mem_finRange k))
    refine ⟨Finset.univ.image z, lt_of_le_of_lt Finset.card_image_le (by simp), fun j hj => (hs j).2 hj, amp * q, ?_, fun j hj => ?_⟩
    · rw [abs_mul]
      exact mul_le_of_le_one_right (abs_nonneg _) hq
    · obtain ⟨k, hk, e⟩ := (hs j).1 hj
      obtain ⟨a, ha⟩ := hx j
      exact ⟨a, ha, by rw [e, hk, ha, mul_fin, add_fin]⟩

end FWA

/-! ### All coordinates -/

namespace FSS

/-- C113 for the individual movement of fish: a fish swims at most `step` in every coordinate, and only if that is an improvement. -/
theorem C113_individual (step : Vec D) (hs : ∀ j, ∃ q : ℚ, 0 ≤ q ∧ step j = .fin q) (i : Fin N) (school : Fin N → Fish D) (hx : Finites (school i).x)
    (xb : Vec D) (fxb : Fl) : Post env (moveOne step i (school, xb, fxb)) fun a => (∀ k, k ≠ i → a.1 k = school k) ∧
      ((a.1 i).x = (school i).x ∧ (a.1 i).f = (school i).f ∨ (a.1 i).f < (school i).f ∧
        ∃ z, Comes env (a.1 i).x z ∧ ∀ j, ∃ q : ℚ, step j = .fin q ∧ NiaPy.Within q (z j) ((school i).x j)) := by
  dsimp only [moveOne]
  refine .bind' (P := fun u => ∀ j, ∃ q : ℚ, u j = .fin q ∧ |q| ≤ 1) (Post.tabM (P := fun _ u => ∃ q : ℚ, u = .fin q ∧ |q| ≤ 1) fun j => .unif fun u h0 h1 => ?_) fun u hu => ?_
  · have e1 : (-1 : Fl) = .fin (-1) := by rw [Exact.one_fin]; rfl
    rw [e1] at h0
    rw [Exact.one_fin] at h1
    obtain ⟨q, rfl, h⟩ := Fl.fin_between h0 h1
    exact ⟨q, rfl, abs_le.2 h⟩
  · refine .bind' (P := fun y => Comes env y fun j => (school i).x j + step j * u j) (.repair fun rng k => ⟨rng, k, rfl⟩) fun y hy => .bind' .any fun v _ => ?_
    refine LOA.Post.ite (fun h => .pure' ⟨fun k hk => Function.update_of_ne hk _ _, .inr ?_⟩) fun h => .pure' ⟨fun k hk => Function.update_of_ne hk _ _, .inl ?_⟩
    · simp only [Function.update_self]
      refine ⟨h, _, hy, fun j => ?_⟩
      obtain ⟨q, hq0, hq⟩ := hs j
      obtain ⟨r, hr, hr1⟩ := hu j
      obtain ⟨a, ha⟩ := hx j
      refine ⟨q, hq, a + q * r, a, by rw [ha, hq, hr, mul_fin, add_fin], ha, ?_⟩
      rw [add_sub_cancel_left, abs_mul, abs_of_nonneg hq0]
      exact mul_le_of_le_one_right hq0 hr1
    · simp only [Function.update_self, and_self]

end FSS

namespace SA

/-- C113 for simulated annealing: the new solution, if it is accepted, was at most half of `delta` away in every coordinate. -/
theorem C113_step (p : Par) (d : ℚ) (hd : 0 ≤ d) (hp : p.delta = .fin d) (s : One D Fl) (hx : Finites s.x) (xb : Vec D) (fxb : Fl) :
    Post env (iter p s xb fxb) fun a => a.1.x = s.x ∧ a.1.f = s.f ∨ ∃ z, Comes env a.1.x z ∧ Possible env a.1.x a.1.f ∧ ∀ j, Within (d / 2) (z j) (s.x j) := by
  refine .bind' (Post.tabM fun _ => .draw) fun u hu => ?_
  refine .bind' (P := fun c => Comes env c fun j => s.x j - p.delta / Fl.ofNat 2 + u j * p.delta) (.repair fun rng k => ⟨rng, k, rfl⟩) fun c hc =>
    .bind' (.eval fun v hv => hv) fun v hv => .bind' .any fun r _ => .bind' .any fun w _ => ?_
  dsimp only
  refine .pure' ?_
  dsimp only
  split
  · refine .inr ⟨_, hc, hv, fun j => ?_⟩
    obtain ⟨q, hq, h0, h1⟩ := (hu j).fin
    obtain ⟨a, ha⟩ := hx j
    refine ⟨a - d / (2 : ℕ) + q * d, a, by rw [ha, hp, hq, Exact.ofNat_fin, div_fin _ _ (by norm_num), sub_fin, mul_fin, add_fin], ha, ?_⟩
    rw [abs_le]
    push_cast
    constructor <;> nlinarith
  · exact .inl ⟨rfl, rfl⟩

end SA

namespace HS

/-- C113 for harmony search: a note within the bounds, one of the memory, or one at most `b_range` from one of the memory. -/
theorem C113_note (B : Box D) (p : Par) (b : ℚ) (hb : 0 ≤ b) (hw : p.width = .plain (.fin b)) (s : St D N) (hs : ∀ j, Finites (s.pop j)) (i : Fin D) :
    Post env (note B p s i) fun v => B.lo i ≤ v ∧ v ≤ B.hi i ∨ ∃ j, Within b v (s.pop j i) := by
  refine .bind' .any fun r _ => .bind' .any fun j _ => LOA.Post.ite (fun _ => .pure' ?_) fun _ => LOA.Post.ite (fun _ => ?_) fun _ => .unif fun v h0 h1 => .inl ⟨h0, h1⟩
  · obtain ⟨a, ha⟩ := hs j i
    exact .inr ⟨j, a, a, ha, ha, by simpa using hb⟩
  · rw [hw]
    refine .bind' (P := fun u => ∃ q : ℚ, u = .fin q ∧ |q| ≤ b) (.bind' (P := fun u => ∃ q : ℚ, u = .fin q ∧ |q| ≤ 1) (.unif fun u h0 h1 => ?_) fun u hu => .pure' ?_) fun u hu => .pure' (.inr ⟨j, ?_⟩)
    · have e1 : (-1 : Fl) = .fin (-1) := by rw [Exact.one_fin]; rfl
      rw [e1] at h0
      rw [Exact.one_fin] at h1
      obtain ⟨q, rfl, h⟩ := Fl.fin_between h0 h1
      exact ⟨q, rfl, abs_le.2 h⟩
    · obtain ⟨q, rfl, hq⟩ := hu
      refine ⟨q * b, mul_fin _ _, ?_⟩
      rw [abs_mul, abs_of_nonneg hb]
      exact mul_le_of_le_one_left hb hq
    · obtain ⟨q, rfl, hq⟩ := hu
      obtain ⟨a, ha⟩ := hs j i
      exact ⟨a + q, a, by rw [ha, add_fin], ha, by rwa [add_sub_cancel_left]⟩

end HS

namespace GWO

/-- C113 for grey wolves: the point a wolf aims at is, in every coordinate, at most `a` times the distance of the wolf to the leader away from the
leader, where the leader is taken with a factor between 0 and 2. -/
theorem C113_approach (a : ℚ) (ha : 0 ≤ a) (lead w : Vec D) (hl : Finites lead) (hw : Finites w) : Post env (approach (.fin a) lead w) fun y =>
    ∀ d, ∃ l q c : ℚ, lead d = .fin l ∧ w d = .fin q ∧ 0 ≤ c ∧ c < 2 ∧ Within (a * |c * l - q|) (y d) (lead d) := by
  refine .bind' (Post.tabM fun _ => .draw) fun r hr => .bind' (Post.tabM fun _ => .draw) fun r' hr' => .pure' fun d => ?_
  obtain ⟨l, hl⟩ := hl d
  obtain ⟨q, hq⟩ := hw d
  obtain ⟨x, hx, x0, x1⟩ := (hr d).fin
  obtain ⟨c, hc, c0, c1⟩ := (hr' d).fin
  refine ⟨l, q, (2 : ℕ) * c, hl, hq, by positivity, by push_cast; linarith, l - ((2 : ℕ) * a * x - a) * |(2 : ℕ) * c * l - q|, l, ?_, hl, ?_⟩
  · beta_reduce
    rw [hl, hq, hx, hc, Exact.ofNat_fin, mul_fin, mul_fin, mul_fin, mul_fin, sub_fin, sub_fin]
    show Fl.fin l - .fin _ * .fin |(2 : ℕ) * c * l - q| = _
    rw [mul_fin, sub_fin]
  · rw [sub_sub_cancel_left, abs_neg, abs_mul, abs_abs]
    refine mul_le_mul_of_nonneg_right (abs_le.2 ?_) (abs_nonneg _)
    push_cast
    constructor <;> nlinarith

/-- C113 for grey wolves: where `a` is zero the pack meets in the middle of its leaders. -/
theorem C113_meet (l : Leaders D) (w : Vec D) (h1 : Finites l.alpha) (h2 : Finites l.beta) (h3 : Finites l.delta) (hw : Finites w) :
    Post env (move (.fin 0) l w) fun y => ∃ z, Comes env y z ∧ ∀ d, ∃ a b c : ℚ, l.alpha d = .fin a ∧ l.beta d = .fin b ∧ l.delta d = .fin c ∧
      z d = .fin ((a + b + c) / 3) := by
  have key : ∀ lead : Vec D, Finites lead → Post env (approach (.fin 0) lead w) fun y => y = lead := fun lead hl =>
    (C113_approach 0 le_rfl lead w hl hw).mono fun y hy => funext fun d => by
      obtain ⟨l, q, c, e, -, -, -, p, p', e1, e2, h⟩ := hy d
      rw [zero_mul] at h
      rw [e1, e2, sub_eq_zero.1 (abs_nonpos_iff.1 h)]
  refine .bind' (key _ h1) fun x1 e1 => .bind' (key _ h2) fun x2 e2 => .bind' (key _ h3) fun x3 e3 => .repair fun rng k => ⟨_, ⟨rng, k, rfl⟩, fun d => ?_⟩
  subst e1 e2 e3
  obtain ⟨a, ha⟩ := h1 d
  obtain ⟨b, hb⟩ := h2 d
  obtain ⟨c, hc⟩ := h3 d
  refine ⟨a, b, c, ha, hb, hc, ?_⟩
  rw [ha, hb, hc, Exact.ofNat_fin, add_fin, add_fin, div_fin _ _ (by norm_num)]
  norm_num

end GWO

namespace FA

/-- C113 for fireflies: the noise of a move is at most half of `alpha` times the range of the coordinate; apart from it the firefly moves to the
other one by its attractiveness. -/
theorem C113_move (B : Box D) (p : Par) (a : ℚ) (ha : 0 ≤ a) (xi xj : Vec D) (h1 : Finites xi) (h2 : Finites xj)
    (b : ℚ) (hb : p.beta0 * Arith.fn .exp (-p.gamma * Arith.pow (euclid xi xj) (Fl.ofNat 2)) = .fin b) (lo hi : Fin D → ℚ) (hl : ∀ d, B.lo d = .fin (lo d)) (hh : ∀ d, B.hi d = .fin (hi d))
    (hlh : ∀ d, lo d ≤ hi d) : Post env (move B p (.fin a) xi xj) fun y => ∃ z, Comes env y z ∧ ∀ d, ∃ u v : ℚ, xi d = .fin u ∧ xj d = .fin v ∧
      Within (a / 2 * (hi d - lo d)) (z d) (.fin ((1 - b) * u + b * v)) := by
  dsimp only [move]
  refine .bind' (Post.tabM fun _ => .draw) fun r hr => .repair fun rng k => ⟨_, ⟨rng, k, rfl⟩, fun d => ?_⟩
  obtain ⟨u, hu⟩ := h1 d
  obtain ⟨v, hv⟩ := h2 d
  obtain ⟨x, hx, x0, x1⟩ := (hr d).fin
  refine ⟨u, v, hu, hv, u + (b * (v - u) + a * (x - (1 : ℕ) / (2 : ℕ)) * (hi d - lo d)), (1 - b) * u + b * v, ?_, rfl, ?_⟩
  · rw [hb, hu, hv, hx, hl, hh, lit, sub_fin, sub_fin, sub_fin, mul_fin, mul_fin, mul_fin, add_fin, add_fin]
  · have e : u + (b * (v - u) + a * (x - (1 : ℕ) / (2 : ℕ)) * (hi d - lo d)) - ((1 - b) * u + b * v) = a * (x - 1 / 2) * (hi d - lo d) := by
      push_cast
      ring
    rw [e, abs_mul, abs_mul, abs_of_nonneg ha, abs_of_nonneg (sub_nonneg.2 (hlh d))]
    have : |x - 1 / 2| ≤ 1 / 2 := abs_le.2 ⟨by linarith, by linarith⟩
    have h3 := mul_le_mul_of_nonneg_left this ha
    have h4 := mul_le_mul_of_nonneg_right h3 (sub_nonneg.2 (hlh d))
    linarith

end FA

namespace FWA

/-- C113 for the bare-bones fireworks algorithm: the firework stays or moves, before repair, at most the amplitude in every coordinate, to a better
value; the amplitude is then multiplied by the one coefficient or the other. -/
theorem C113_bare (p : BBPar) (s : BBSt D) (hx : Finites s.x) (ha : Finites s.amp) (xb : Vec D) (fxb : Fl) : Post env (bbIter p s xb fxb) fun a =>
    a.1.x = s.x ∧ a.1.f = s.f ∧ a.1.amp = (fun j => p.down * s.amp j) ∨
    a.1.f < s.f ∧ a.1.amp = (fun j => p.up * s.amp j) ∧ ∃ z, Comes env a.1.x z ∧ ∀ j, ∃ q : ℚ, s.amp j = .fin q ∧ Within q (z j) (s.x j) := by
  refine .bind' (P := fun ys => ∀ k j, ∃ q : ℚ, s.amp j = .fin q ∧ Within q (ys k j) (s.x j)) ?_ fun ys hy => ?_
  · refine Post.tabM (P := fun _ (y : Vec D) => ∀ j, ∃ q : ℚ, s.amp j = .fin q ∧ Within q (y j) (s.x j)) fun k =>
      Post.tabM (P := fun j (v : Fl) => ∃ q : ℚ, s.amp j = .fin q ∧ Within q v (s.x j)) fun j => .unif fun u h0 h1 => ?_
    obtain ⟨x, hx⟩ := hx j
    obtain ⟨q, hq⟩ := ha j
    beta_reduce at h0 h1
    rw [hx, hq, sub_fin] at h0
    rw [hx, hq, add_fin] at h1
    obtain ⟨v, rfl, h2, h3⟩ := Fl.fin_between h0 h1
    exact ⟨q, hq, v, x, rfl, hx, abs_le.2 ⟨by linarith, by linarith⟩⟩
  · refine .bind' (P := fun xs : Fin p.num → Vec D => ∀ k, Comes env (xs k) (ys k)) (Post.tabM (P := fun k x => Comes env x (ys k)) fun k => .repair fun rng n => ⟨rng, n, rfl⟩) fun xs hxs =>
      .bind' .any fun fs _ => .bind' .any fun i _ => .pure' ?_
    split
    · exact .inr ⟨‹_›, rfl, ys i, hxs i, hy i⟩
    · exact .inl ⟨rfl, rfl, rfl⟩

end FWA

namespace MBO

omit [Arith] [ExactOps] in
theorem row_post (pop : Fin N → Vec D) (k : ℕ) : Post env (row pop k) fun y => ∃ h : k < N, y = pop ⟨k, h⟩ := by
  unfold row
  split
  · exact .pure' ⟨‹_›, rfl⟩
  · exact LOA.Post.throw

omit [ExactOps] in
/-- C113 for the migration of butterflies: those of the second land stay; each coordinate of those of the first land is that of a butterfly of the
first or of the second land. -/
theorem C113_migrate (p : Par) (pop : Fin N → Vec D) : Post env (migrate p pop) fun q =>
    ∀ i, (p.np1 ≤ i.1 → q i = pop i) ∧ ∀ j, ∃ k, q i j = pop k j := by
  refine Post.tabM (P := fun i (y : Vec D) => (p.np1 ≤ i.1 → y = pop i) ∧ ∀ j, ∃ k, y j = pop k j) fun i => LOA.Post.ite (fun h => ?_) fun h => .pure' ⟨fun _ => rfl, fun j => ⟨i, rfl⟩⟩
  refine (Post.tabM (P := fun j v => ∃ k, v = pop k j) fun j => ?_).mono fun y hy => ⟨fun h' => absurd h (by omega), hy⟩
  refine .bind' .any fun r _ => LOA.Post.ite (fun _ => ?_) fun _ => ?_
  · exact .bind' .any fun k _ => .bind' (row_post pop _) fun y ⟨h, e⟩ => .pure' ⟨⟨_, h⟩, by rw [e]⟩
  · exact .bind' .any fun k _ => .bind' (row_post pop _) fun y ⟨h, e⟩ => .pure' ⟨⟨_, h⟩, by rw [e]⟩

end MBO

/-- Points and bounds as in the theorems. -/
example : ∃ x y : Vec 2, Finites x ∧ Finites y ∧ x ≠ y ∧ Apart 1 x y ∧ ∀ j, Within 1 (y j) (x j) := by
  refine ⟨fun _ => .fin 0, fun j => .fin (if j = 0 then 1 else 0), fun _ => ⟨_, rfl⟩, fun _ => ⟨_, rfl⟩, fun h => absurd (congrFun h 0) (by simp), ⟨{0}, by simp, fun j hj => ?_⟩, fun j => ⟨_, _, rfl, rfl, ?_⟩⟩
  · simp only [Finset.mem_singleton] at hj
    simp [hj]
  · split <;> simp

end NiaPy
