import Verif.Attract
import Verif.Algo.NM
import Verif.Algo.KH
import Verif.Algo.BFO
import Verif.Algo.MBO
import Verif.Algo.CRO
import Verif.Algo.LOAShape

/-!
# What new individuals are made of (C115)

Offspring of lions and corals, cells after reproduction, vertices of the simplex, coordinates of butterflies.
-/

namespace NiaPy
variable [Arith] {D N : ℕ} {env : Env (Vec D)}

/-! ### Lions -/

namespace LOA
open ExactOps

omit [Arith] in
theorem matingMales_post (hasPride : Bool) {n : ℕ} (hn : 0 < n) : Post env (matingMales hasPride n : Prog (Vec D) ℕ) fun k => 1 ≤ k ∧ k ≤ n := by
  refine LOA.Post.ite (fun _ => .pure' ⟨le_rfl, hn⟩) fun h => .bind' (.yields Yields.int) fun k hk => .pure' ⟨by omega, by omega⟩

theorem cub_post (x : Vec D) (pride : ℕ) (female : Bool) : Post env (cub x pride female) fun l =>
    Comes env l.x x ∧ Possible env l.x l.f ∧ l.female = female ∧ l.pride = pride :=
  .bind' (P := fun y => Comes env y x) (.repair fun rng k => ⟨rng, k, rfl⟩) fun _ hy => .bind' (.eval fun _ hv => hv) fun _ hv => .pure' ⟨hy, hv, rfl, rfl⟩

/-- C115 for lions without mutation: a mating has two cubs, one of each sex, of the pride; before repair they lie on the line through the mother and the
mean of the fathers, which are different males, at mirrored places: together they weigh mother and fathers equally. -/
theorem C115_cubs [ExactOps] (B : Box D) (p : Par) (hm : p.mutation ≤ .fin 0) (heap : ℕ → Lion D) (female : ℕ) {males : List ℕ} (hl : males ≠ []) (pride : ℕ)
    {X : ℕ → Fin D → ℚ} (hx : ∀ k j, (heap k).x j = .fin (X k j)) (hz : ∀ k, ∃ q : ℚ, env.rng.dist k .normal (lit 1 2) (lit 1 10) = .fin q) :
    Post env (offspring B p heap female males pride) fun l => ∃ c1 c2, l = [c1, c2] ∧ c1.female = !c2.female ∧ c1.pride = pride ∧ c2.pride = pride ∧
      Possible env c1.x c1.f ∧ Possible env c2.x c2.f ∧ ∃ fathers : List ℕ, fathers ≠ [] ∧ List.Subperm fathers males ∧ ∃ β : ℚ, ∃ M : Fin D → ℚ,
        (∀ j, M j = (fathers.map fun k => X k j).sum / fathers.length) ∧ Comes env c1.x (fun j => .fin (β * X female j + (1 - β) * M j)) ∧
        Comes env c2.x (fun j => .fin ((1 - β) * X female j + β * M j)) := by
  refine LOA.Post.ite (fun h => absurd (List.isEmpty_iff.1 h) hl) fun _ => .bind' (matingMales_post _ (List.length_pos_iff.2 hl)) fun n hn =>
    .bind' (.yields Yields.choiceFin) fun c hc => .bind' (P := fun b : Fl => ∃ q : ℚ, b = .fin q) (.dist fun k => hz k) fun b ⟨β, hb⟩ => ?_
  subst hb
  have hn0 : ((n : ℕ) : ℚ) ≠ 0 := by have := hn.1; positivity
  have hmean : ∀ j, (vsum fun i => (heap (males.get (c i))).x j) / Fl.ofNat n = .fin ((∑ i, X (males.get (c i)) j) / n) := fun j => by
    rw [vsum_fin (g := fun i => X (males.get (c i)) j) fun i => hx _ _, Exact.ofNat_fin, div_fin _ _ hn0]
  refine .bind' (Post.tabM (P := fun j (v : Fl × Fl) => v.1 = .fin (β * X female j + (1 - β) * ((∑ i, X (males.get (c i)) j) / n)) ∧
      v.2 = .fin ((1 - β) * X female j + β * ((∑ i, X (males.get (c i)) j) / n))) fun j =>
    .bind' (C112_mutation _ _ _ _) fun u hu => .bind' (C112_mutation _ _ _ _) fun v hv => .pure' ⟨(hu.1 hm).trans ?_, (hv.1 hm).trans ?_⟩) fun o ho =>
    .bind' .any fun r _ => .bind' (cub_post _ _ _) fun c1 h1 => .bind' (cub_post _ _ _) fun c2 h2 => .pure'
      ⟨c1, c2, rfl, ?_, h1.2.2.2, h2.2.2.2, h1.2.1, h2.2.1, List.ofFn fun i => males.get (c i), ?_, ?_, β, fun j => (∑ i, X (males.get (c i)) j) / n, fun j => ?_, ?_, ?_⟩
  · beta_reduce
    rw [hmean, hx, Exact.one_fin, sub_fin, mul_fin, mul_fin, add_fin]
  · beta_reduce
    rw [hmean, hx, Exact.one_fin, sub_fin, mul_fin, mul_fin, add_fin]
  · rw [h1.2.2.1, h2.2.2.1]
    by_cases h : r < lit 1 2 <;> simp [h]
  · intro h
    have := congrArg List.length h
    simp at this
    omega
  · have : List.ofFn (fun i => males.get (c i)) = (List.ofFn c).map males.get := by rw [List.map_ofFn]; rfl
    rw [this]
    have h3 : List.Subperm (List.ofFn c) (List.finRange males.length) := (List.nodup_ofFn.2 hc).subperm fun i _ => List.mem_finRange i
    obtain ⟨l, hp, hs⟩ := h3
    have := hs.map males.get
    rw [List.map_get_finRange] at this
    exact ⟨_, hp.map _, this⟩
  · rw [List.map_ofFn, List.sum_ofFn, List.length_ofFn]
    rfl
  · rw [← funext fun j => (ho j).1]
    exact h1.1
  · rw [← funext fun j => (ho j).2]
    exact h2.1

end LOA

/-! ### Corals -/

namespace CRO

omit [Arith] in
/-- C115 for broadcast spawning: every coordinate of a larva is that of one of the spawners, and larvae from the second half on are copies. -/
theorem C115_crossover {n : ℕ} (p : Fl) (pop : Fin n → Vec D) : Post env (crossover p pop) fun q => (∀ k d, ∃ m, q k d = pop m d) ∧ ∀ k : Fin n, n / 2 ≤ k.1 → q k = pop k := by
  refine Post.eachFin (fun q : Fin n → Vec D => (∀ k d, ∃ m, q k d = pop m d) ∧ ∀ k : Fin n, n / 2 ≤ k.1 → q k = pop k) ⟨fun k d => ⟨k, rfl⟩, fun _ _ => rfl⟩ fun i q hq => ?_
  refine .bind' (Post.tabM (P := fun d v => ∃ m, v = pop m d) fun d => .bind' .any fun r _ => .pure' ?_) fun v hv => .pure' ⟨fun k d => ?_, fun k hk => ?_⟩
  · split
    · exact hq.1 _ _
    · exact hq.1 _ _
  · rw [Function.update_apply]
    split
    · exact hv d
    · exact hq.1 k d
  · rw [Function.update_of_ne (fun h => absurd (congrArg Fin.val h) (by have := i.2; simp; omega))]
    exact hq.2 k hk

omit [Arith] in
/-- C115 is false of the first spawner: it is crossed with itself, so its larva is a copy, whatever the rate. -/
theorem C115_first_false {n : ℕ} (p : Fl) (pop : Fin n → Vec D) : Post env (crossover p pop) fun q => ∀ h : 0 < n, q ⟨0, h⟩ = pop ⟨0, h⟩ := by
  refine Post.eachFin (fun q : Fin n → Vec D => ∀ h : 0 < n, q ⟨0, h⟩ = pop ⟨0, h⟩) (fun _ => rfl) fun i q hq => ?_
  by_cases hi : i.1 = 0
  · refine .bind' (Post.tabM (P := fun d v => ∀ h : 0 < n, v = pop ⟨0, h⟩ d) fun d => .bind' .any fun r _ => .pure' fun h => ?_) fun v hv => .pure' fun h => ?_
    · have e1 : (⟨i, by have := i.2; omega⟩ : Fin n) = ⟨0, h⟩ := Fin.ext hi
      have e2 : (⟨i * 2, by have := i.2; omega⟩ : Fin n) = ⟨0, h⟩ := Fin.ext (by simp [hi])
      rw [e1, e2, ite_self, hq h]
    · have e1 : (⟨i, by have := i.2; omega⟩ : Fin n) = ⟨0, h⟩ := Fin.ext hi
      rw [e1, Function.update_self]
      exact funext fun d => hv d h
  · refine .bind' .any fun v _ => .pure' fun h => ?_
    rw [Function.update_of_ne (fun h => hi (congrArg Fin.val h).symm)]
    exact hq h

end CRO

/-! ### Bacteria -/

namespace BFO

omit [Arith] in
/-- C115 for reproduction: the healthier half of the cells is kept twice and forgets its health, the others die. -/
theorem C115_reproduce (N : ℕ) (cells : List (Cell D)) : Post env (reproduce N cells) fun l => ∃ half rest : List (Cell D), (half ++ rest).Perm cells ∧
    half.length = min (N / 2) cells.length ∧ (∀ a ∈ half, ∀ b ∈ rest, leNanLast a.health b.health) ∧ l = (half ++ half).map fun c => { c with health := 0 } := by
  have h : Post env (sortRecs (·.health) cells >>= fun l => Pure.pure ((l.take (N / 2) ++ l.take (N / 2)).map fun c => { c with health := 0 } : List (Cell D)) : Prog (Vec D) (List (Cell D)))
      fun l => ∃ half rest : List (Cell D), (half ++ rest).Perm cells ∧ half.length = min (N / 2) cells.length ∧ (∀ a ∈ half, ∀ b ∈ rest, leNanLast a.health b.health) ∧
        l = (half ++ half).map fun c => { c with health := 0 } := by
    refine .bind' (.yields Yields.sortRecs) fun l hl => .pure' ⟨l.take (N / 2), l.drop (N / 2), ?_, ?_, ?_, rfl⟩
    · rw [List.take_append_drop]
      exact hl.1
    · rw [List.length_take, hl.1.length_eq]
    · have := hl.2
      rw [← List.take_append_drop (N / 2) l, List.pairwise_append] at this
      exact this.2.2
  exact h

end BFO

/-! ### The simplex -/

namespace NM

/-- C115 for the Nelder-Mead method: either the worst vertex alone is replaced, by a point on the line through it and the centroid of the others, or all
vertices but the best are moved on the lines through them and the best. -/
theorem C115_simplex (p : Par) (s : St D N) (hN : 0 < N) : Post env (method p s) fun s' =>
    ((∀ i : Fin N, i.1 ≠ N - 1 → s'.pop i = s.pop i ∧ s'.fit i = s.fit i) ∧ Possible env (s'.pop ⟨N - 1, by omega⟩) (s'.fit ⟨N - 1, by omega⟩) ∧
      ∃ c : Fl, (c = p.alpha ∨ c = p.gamma ∨ c = p.rho ∧ s'.fit ⟨N - 1, by omega⟩ < s.fit ⟨N - 1, by omega⟩) ∧
        ∀ j, s'.pop ⟨N - 1, by omega⟩ j = centroid s.pop j + c * (centroid s.pop j - s.pop ⟨N - 1, by omega⟩ j)) ∨
    (s'.pop ⟨0, hN⟩ = s.pop ⟨0, hN⟩ ∧ s'.fit ⟨0, hN⟩ = s.fit ⟨0, hN⟩ ∧ ∀ i : Fin N, i.1 ≠ 0 → Possible env (s'.pop i) (s'.fit i) ∧
      ∀ j, s'.pop i j = s.pop ⟨0, hN⟩ j + p.sigma * (s.pop i j - s.pop ⟨0, hN⟩ j)) := by
  have hlast : ∀ (x : Vec D) (v : Fl), (∀ i : Fin N, i.1 ≠ N - 1 → (setLast s hN x v).pop i = s.pop i ∧ (setLast s hN x v).fit i = s.fit i) ∧
      (setLast s hN x v).pop ⟨N - 1, by omega⟩ = x ∧ (setLast s hN x v).fit ⟨N - 1, by omega⟩ = v := fun x v => by
    refine ⟨fun i hi => ?_, Function.update_self _ _ _, Function.update_self _ _ _⟩
    have : i ≠ ⟨N - 1, by omega⟩ := fun h => hi (congrArg Fin.val h)
    exact ⟨Function.update_of_ne this _ _, Function.update_of_ne this _ _⟩
  unfold method
  rw [dif_pos hN]
  refine .bind' (.eval fun v hv => hv) fun rs hrs => .bind' .any fun b _ => LOA.Post.ite (fun _ => .pure' (.inl ?_)) fun _ => LOA.Post.ite (fun _ => ?_) fun _ => ?_
  · obtain ⟨h1, h2, h3⟩ := hlast (away p.alpha (centroid s.pop) (s.pop ⟨N - 1, by omega⟩)) rs
    exact ⟨h1, by rw [h2, h3]; exact hrs, p.alpha, .inl rfl, fun j => by rw [h2]; rfl⟩
  · refine .bind' (.eval fun v hv => hv) fun re hre => .pure' (.inl ?_)
    split
    · obtain ⟨h1, h2, h3⟩ := hlast (away p.gamma (centroid s.pop) (s.pop ⟨N - 1, by omega⟩)) re
      exact ⟨h1, by rw [h2, h3]; exact hre, p.gamma, .inr (.inl rfl), fun j => by rw [h2]; rfl⟩
    · obtain ⟨h1, h2, h3⟩ := hlast (away p.alpha (centroid s.pop) (s.pop ⟨N - 1, by omega⟩)) rs
      exact ⟨h1, by rw [h2, h3]; exact hrs, p.alpha, .inl rfl, fun j => by rw [h2]; rfl⟩
  · refine .bind' (.eval fun v hv => hv) fun rc hrc => LOA.Post.ite (fun hlt => .pure' (.inl ?_)) fun _ => ?_
    · obtain ⟨h1, h2, h3⟩ := hlast (away p.rho (centroid s.pop) (s.pop ⟨N - 1, by omega⟩)) rc
      exact ⟨h1, by rw [h2, h3]; exact hrc, p.rho, .inr (.inr ⟨rfl, by rw [h3]; exact hlt⟩), fun j => by rw [h2]; rfl⟩
    · refine .bind' (P := fun f : Fin (N - 1) → Fl => ∀ i, Possible env (shrunk p s i) (f i)) ?_ fun f hf => .pure' (.inr ⟨?_, ?_, fun i hi => ⟨?_, fun j => ?_⟩⟩)
      · exact LOA.Post.ite (fun _ => LOA.Post.throw) fun _ => Post.tabM (P := fun i v => Possible env (shrunk p s i) v) fun i => .eval fun v hv => hv
      · simp [setTail]
      · simp [setTail]
      · have := hf ⟨i - 1, by omega⟩
        simpa only [setTail, dif_neg hi] using this
      · simp only [setTail, dif_neg hi, shrunk]
        have e : (⟨i - 1 + 1, by omega⟩ : Fin N) = i := Fin.ext (by simp; omega)
        rw [e]

/-- The centroid of `C115_simplex` is the mean of all vertices but the worst. -/
theorem C115_centroid [ExactOps] {pop : Fin N → Vec D} {X : Fin N → Fin D → ℚ} (hx : ∀ i j, pop i j = .fin (X i j)) (hN : 2 ≤ N) (j : Fin D) :
    centroid pop j = .fin ((∑ i : Fin N, if i.1 = N - 1 then 0 else X i j) / (N - 1)) := by
  obtain ⟨n, rfl⟩ : ∃ n, N = n + 2 := ⟨N - 2, by omega⟩
  have hn : ((n + 1 : ℕ) : ℚ) ≠ 0 := by positivity
  simp only [centroid]
  rw [ExactOps.vsum_fin (g := fun i : Fin (n + 2 - 1) => X ⟨i, by omega⟩ j) fun i => hx _ _, Exact.ofNat_fin, ExactOps.div_fin _ _ (by exact hn)]
  congr 1
  have e : ((n + 2 - 1 : ℕ) : ℚ) = ((n + 2 : ℕ) : ℚ) - 1 := by push_cast [Nat.add_sub_assoc]; ring
  rw [e, Fin.sum_univ_castSucc]
  congr 1
  rw [if_pos (by simp), add_zero]
  refine Finset.sum_congr rfl fun i _ => ?_
  rw [if_neg (by have := i.2; simp only [Fin.val_castSucc]; omega)]
  rfl

end NM

/-! ### Butterflies -/

namespace MBO

/-- C115 for the adjusting operator: butterflies of the first land stay; a coordinate of one of the second land is that of the current best, or the second
coordinate of a butterfly of the second land (C59), to which a walk of at most `1/t²` times a Lévy step is added. -/
theorem C115_adjust (p : Par) (t : ℕ) (pop : Fin N → Vec D) (best : Vec D) : Post env (adjust p t pop best) fun q =>
    ∀ i, (i.1 < p.np1 → q i = pop i) ∧ (p.np1 ≤ i.1 → ∀ j, q i j = best j ∨ ∃ k : Fin N, ∃ h : 1 < D, p.np1 ≤ k.1 ∧
      (q i j = pop k ⟨1, h⟩ ∨ ∃ l : Fl, q i j = pop k ⟨1, h⟩ + 1 / Fl.ofNat ((t + 1) * (t + 1)) * (l - lit 1 2))) := by
  refine Post.tabM (P := fun i (y : Vec D) => (i.1 < p.np1 → y = pop i) ∧ (p.np1 ≤ i.1 → ∀ j, y j = best j ∨ ∃ k : Fin N, ∃ h : 1 < D, p.np1 ≤ k.1 ∧
      (y j = pop k ⟨1, h⟩ ∨ ∃ l : Fl, y j = pop k ⟨1, h⟩ + 1 / Fl.ofNat ((t + 1) * (t + 1)) * (l - lit 1 2)))) fun i =>
    LOA.Post.ite (fun h => .pure' ⟨fun _ => rfl, fun h' => absurd h (by omega)⟩) fun h => ?_
  refine .bind' .any fun _ _ => .bind' .any fun dx _ => (Post.tabM (P := fun j (v : Fl) => v = best j ∨ ∃ k : Fin N, ∃ h : 1 < D, p.np1 ≤ k.1 ∧
      (v = pop k ⟨1, h⟩ ∨ ∃ l : Fl, v = pop k ⟨1, h⟩ + 1 / Fl.ofNat ((t + 1) * (t + 1)) * (l - lit 1 2))) fun j => ?_).mono fun y hy => ⟨fun h' => absurd h' h, fun _ => hy⟩
  refine .bind' .any fun u _ => LOA.Post.ite (fun _ => .pure' (.inl rfl)) fun _ => .bind' .any fun k _ => .bind' (row_post pop _) fun y ⟨hk, hy⟩ => ?_
  refine .bind' (P := fun z => ∃ h : 1 < D, z = y ⟨1, h⟩) ?_ fun z ⟨h1, hz⟩ => .bind' .any fun u' _ => .pure' (.inr ⟨⟨p.np1 + k, hk⟩, h1, by simp, ?_⟩)
  · unfold second
    split
    · exact .pure' ⟨‹_›, rfl⟩
    · exact LOA.Post.throw
  · subst hz hy
    split
    · exact .inr ⟨dx j, rfl⟩
    · exact .inl rfl

end MBO

/-! ### Krill -/

namespace KH
open ExactOps

/-- C115 for the food location when all objective values are positive: before repair it is a mean of the herd in which better krill weigh more. -/
theorem C115_food [ExactOps] (hN : 0 < N) (s : St D N) {X : Fin N → Fin D → ℚ} {q : Fin N → ℚ} (hx : ∀ i j, s.pop i j = .fin (X i j)) (hq : ∀ i, s.fit i = .fin (q i))
    (h0 : ∀ i, 0 < q i) : ∃ w : Fin N → ℚ, (∀ i, 0 < w i) ∧ ∑ i, w i = 1 ∧ (∀ i k, q i < q k → w k < w i) ∧ ∀ j, foodPoint s j = .fin (∑ i, w i * X i j) := by
  haveI : Nonempty (Fin N) := ⟨⟨0, hN⟩⟩
  have hS : 0 < ∑ i, 1 / q i := Finset.sum_pos (fun i _ => one_div_pos.2 (h0 i)) Finset.univ_nonempty
  refine ⟨fun i => 1 / q i / ∑ i, 1 / q i, fun i => div_pos (one_div_pos.2 (h0 i)) hS, ?_, fun i k h => ?_, fun j => ?_⟩
  · rw [← Finset.sum_div, div_self hS.ne']
  · exact div_lt_div_of_pos_right (one_div_lt_one_div_of_lt (h0 i) h) hS
  · simp only [foodPoint]
    rw [vsum_fin (g := fun i => X i j / q i) fun i => by rw [hx, hq, div_fin _ _ (h0 i).ne'], vsum_fin (g := fun i => 1 / q i) fun i => by
      rw [hq, Exact.one_fin, div_fin _ _ (h0 i).ne'], div_fin _ _ hS.ne', Finset.sum_div]
    congr 1
    exact Finset.sum_congr rfl fun i _ => by ring

/-- C115 is false of the food location when objective values have both signs: it may lie outside of the herd. -/
theorem C115_food_false : ∃ s : St 1 2, (∀ i, .fin 0 ≤ s.pop i 0 ∧ s.pop i 0 ≤ .fin 1) ∧ @foodPoint Ex.arith 1 2 s 0 = .fin (-1) :=
  ⟨⟨![fun _ => .fin 0, fun _ => .fin 1], ![.fin 1, .fin (-2)], fun _ _ => .fin 0, fun _ _ => .fin 0⟩, by decide +kernel, by decide +kernel⟩

/-- C115 for the crossover of krill: every coordinate is one of the two krill's. -/
theorem C115_crossover (x xo : Vec D) (cr : Fl) : Post env (crossover x xo cr) fun y => ∀ j, y j = x j ∨ y j = xo j :=
  .bind' .any fun r _ => .pure' fun j => by
    by_cases h : r j < cr
    · exact .inr (if_pos h)
    · exact .inl (if_neg h)

end KH

/-- A pride with one male and the identity as repair, for `LOA.C115_cubs`. -/
example : ∃ (X : ℕ → Fin 1 → ℚ) (heap : ℕ → LOA.Lion 1), (∀ k j, (heap k).x j = .fin (X k j)) ∧ X 0 ≠ X 1 ∧ (∀ k, ∃ q : ℚ, (Ex.env2 (D := 1)).rng.dist k .normal (lit 1 2) (lit 1 10) = .fin q) :=
  ⟨fun k _ => k, fun k => ⟨fun _ => .fin k, .fin 0, k == 0, 0, 0, fun _ => .fin k, .fin 0, .fin 0, false⟩, fun _ _ => rfl, fun h => by simpa using congrFun h 0, fun k => ⟨_, rfl⟩⟩

/-- A krill herd with positive objective values. -/
example : ∃ (s : KH.St 1 2) (q : Fin 2 → ℚ), (∀ i, s.fit i = .fin (q i)) ∧ (∀ i, 0 < q i) ∧ q 0 < q 1 :=
  ⟨⟨![fun _ => .fin 0, fun _ => .fin 1], ![.fin 1, .fin 2], fun _ _ => .fin 0, fun _ _ => .fin 0⟩, ![1, 2], by intro i; fin_cases i <;> rfl, by intro i; fin_cases i <;> norm_num, by norm_num⟩

end NiaPy
