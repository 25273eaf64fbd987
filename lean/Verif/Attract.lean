import Verif.Nearby
import Verif.Algo.PSO
import Verif.Algo.PSOVariants
import Verif.Algo.MFO
import Verif.Algo.MKE
import Verif.Algo.GSA
import Verif.Algo.GSO
import Verif.Algo.HHO
import Verif.Algo.CS
import Verif.Algo.FPA
import Mathlib.Algebra.BigOperators.Field

/-!
# What moves are attracted by (C114)

The points that a candidate is drawn to and how strongly, before it is repaired. Arithmetic is exact and coordinates are finite.
-/

namespace NiaPy
variable [Arith] [ExactOps] {D N : ℕ} {env : Env (Vec D)}
open ExactOps

namespace ExactOps

theorem vsum_fin {n : ℕ} {f : Fin n → Fl} {g : Fin n → ℚ} (h : ∀ i, f i = .fin (g i)) : vsum f = .fin (∑ i, g i) := by
  have key : ∀ (l : List ℚ) (a : ℚ), (l.map Fl.fin).foldl (· + ·) (Fl.fin a) = .fin (a + l.sum) := by
    intro l
    induction l with
    | nil => intro a; simp
    | cons q l ih => intro a; rw [List.map_cons, List.foldl_cons, add_fin, ih, List.sum_cons, add_assoc]
  have e : List.ofFn f = (List.ofFn g).map Fl.fin := by
    rw [List.map_ofFn]; congr 1; funext i; exact h i
  have := key (List.ofFn g) 0
  rw [← e, zero_add, List.sum_ofFn] at this
  exact this

end ExactOps

omit [Arith] [ExactOps] in
theorem Post.draws {n : ℕ} : Post env (randVec n : Prog (Vec D) (Vec n)) fun r => ∃ q : Fin n → ℚ, ∀ j, r j = .fin (q j) ∧ 0 ≤ q j ∧ q j < 1 := by
  refine (Post.tabM (P := fun _ r => Draw r) fun j => .draw).mono fun r h => ?_
  choose q hq using fun j => (h j).fin
  exact ⟨q, hq⟩

/-! ### Particles -/

namespace PSO

/-- C114 for the velocity of particles: the weighted old velocity, and attractions by the personal and by the global best of at most `c1` and `c2`. -/
theorem C114_velocity (p : Par D) (lo hi : Vec D) {w v x pb gb : Vec D} {c1 c2 : ℚ} {W V X P G : Fin D → ℚ} (h1 : p.c1 = .fin c1) (h2 : p.c2 = .fin c2)
    (h10 : 0 ≤ c1) (h20 : 0 ≤ c2) (hw : ∀ j, w j = .fin (W j)) (hv : ∀ j, v j = .fin (V j)) (hx : ∀ j, x j = .fin (X j)) (hp : ∀ j, pb j = .fin (P j))
    (hg : ∀ j, gb j = .fin (G j)) : Post env (vel p w lo hi v x pb gb) fun u => ∃ a b : Fin D → ℚ,
      (∀ j, 0 ≤ a j ∧ a j ≤ c1 ∧ 0 ≤ b j ∧ b j ≤ c2) ∧ u = p.rep (fun j => .fin (W j * V j + a j * (P j - X j) + b j * (G j - X j))) lo hi := by
  refine .bind' Post.draws fun r1 ⟨q1, hr1⟩ => .bind' Post.draws fun r2 ⟨q2, hr2⟩ => .pure' ⟨fun j => c1 * q1 j, fun j => c2 * q2 j, fun j => ?_, ?_⟩
  · obtain ⟨_, ha, hb⟩ := hr1 j
    obtain ⟨_, hc, hd⟩ := hr2 j
    exact ⟨mul_nonneg h10 ha, mul_le_of_le_one_right h10 hb.le, mul_nonneg h20 hc, mul_le_of_le_one_right h20 hd.le⟩
  · congr 1
    funext j
    rw [hw, hv, hx, hp, hg, h1, h2, (hr1 j).1, (hr2 j).1]
    simp only [mul_fin, sub_fin, add_fin]

/-- C114 for the velocity of `MutatedCenterUnifiedParticleSwarmOptimization`: the two attractions share one random weight. -/
theorem C114_unified (p : Par D) (lo hi : Vec D) {w v x pb gb : Vec D} {c1 c2 : ℚ} {W V X P G : Fin D → ℚ} (h1 : p.c1 = .fin c1) (h2 : p.c2 = .fin c2)
    (h10 : 0 ≤ c1) (h20 : 0 ≤ c2) (hw : ∀ j, w j = .fin (W j)) (hv : ∀ j, v j = .fin (V j)) (hx : ∀ j, x j = .fin (X j)) (hp : ∀ j, pb j = .fin (P j))
    (hg : ∀ j, gb j = .fin (G j)) : Post env (velU p w lo hi v x pb gb) fun u => ∃ a b t : Fin D → ℚ,
      (∀ j, 0 ≤ t j ∧ t j ≤ 1 ∧ 0 ≤ a j ∧ a j ≤ c1 * t j ∧ 0 ≤ b j ∧ b j ≤ c2 * (1 - t j)) ∧
      u = p.rep (fun j => .fin (W j * V j + a j * (P j - X j) + b j * (G j - X j))) lo hi := by
  refine .bind' Post.draws fun r3 ⟨q3, hr3⟩ => .bind' Post.draws fun r1 ⟨q1, hr1⟩ => .bind' Post.draws fun r2 ⟨q2, hr2⟩ =>
    .pure' ⟨fun j => c1 * q1 j * q3 j, fun j => c2 * q2 j * (1 - q3 j), q3, fun j => ?_, ?_⟩
  · obtain ⟨_, ha, hb⟩ := hr1 j
    obtain ⟨_, hc, hd⟩ := hr2 j
    obtain ⟨_, he, hf⟩ := hr3 j
    exact ⟨he, hf.le, mul_nonneg (mul_nonneg h10 ha) he, mul_le_mul_of_nonneg_right (mul_le_of_le_one_right h10 hb.le) he,
      mul_nonneg (mul_nonneg h20 hc) (by linarith), mul_le_mul_of_nonneg_right (mul_le_of_le_one_right h20 hd.le) (by linarith)⟩
  · congr 1
    funext j
    rw [hw, hv, hx, hp, hg, h1, h2, (hr1 j).1, (hr2 j).1, (hr3 j).1, Exact.ofNat_fin]
    simp only [mul_fin, sub_fin, add_fin, Nat.cast_one]
    congr 1
    ring

/-- C114 for the unified velocity: without inertia and with coefficients of at most 1, a particle moves into the box spanned by where it is, its
personal best and the global best. -/
theorem C114_hull (p : Par D) (lo hi : Vec D) {w v x pb gb : Vec D} {c1 c2 : ℚ} {V X P G : Fin D → ℚ} (h1 : p.c1 = .fin c1) (h2 : p.c2 = .fin c2)
    (h10 : 0 ≤ c1) (h11 : c1 ≤ 1) (h20 : 0 ≤ c2) (h21 : c2 ≤ 1) (hr : ∀ v, p.rep v lo hi = v) (hw : ∀ j, w j = .fin 0) (hv : ∀ j, v j = .fin (V j))
    (hx : ∀ j, x j = .fin (X j)) (hp : ∀ j, pb j = .fin (P j)) (hg : ∀ j, gb j = .fin (G j)) :
    Post env (velU p w lo hi v x pb gb) fun u => ∀ j, ∃ q, x j + u j = .fin q ∧ min (X j) (min (P j) (G j)) ≤ q ∧ q ≤ max (X j) (max (P j) (G j)) := by
  refine (C114_unified p lo hi h1 h2 h10 h20 hw hv hx hp hg).mono fun u ⟨a, b, t, h, hu⟩ j => ⟨X j + (a j * (P j - X j) + b j * (G j - X j)), ?_, ?_⟩
  · rw [hu, hr, hx, add_fin, zero_mul, zero_add]
  · obtain ⟨h3, h4, h5, h6, h7, h8⟩ := h j
    have h9 : 0 ≤ 1 - a j - b j := by nlinarith
    have e : X j + (a j * (P j - X j) + b j * (G j - X j)) = (1 - a j - b j) * X j + a j * P j + b j * G j := by ring
    rw [e]
    have m1 := min_le_left (X j) (min (P j) (G j))
    have m2 := (min_le_right (X j) (min (P j) (G j))).trans (min_le_left _ _)
    have m3 := (min_le_right (X j) (min (P j) (G j))).trans (min_le_right _ _)
    have n1 := le_max_left (X j) (max (P j) (G j))
    have n2 := (le_max_left (P j) (G j)).trans (le_max_right (X j) _)
    have n3 := (le_max_right (P j) (G j)).trans (le_max_right (X j) _)
    constructor
    · nlinarith [mul_le_mul_of_nonneg_left m1 h9, mul_le_mul_of_nonneg_left m2 h5, mul_le_mul_of_nonneg_left m3 h7]
    · nlinarith [mul_le_mul_of_nonneg_left n1 h9, mul_le_mul_of_nonneg_left n2 h5, mul_le_mul_of_nonneg_left n3 h7]

/-- C114 for the velocity of `ComprehensiveLearningParticleSwarmOptimizer`: one attraction of at most `c` by the point that is learned from. -/
theorem C114_learning (p : CPar D) {w c : ℚ} {v x pb : Vec D} {V X P : Fin D → ℚ} (hc : p.c = .fin c) (h0 : 0 ≤ c) (hv : ∀ j, v j = .fin (V j))
    (hx : ∀ j, x j = .fin (X j)) (hp : ∀ j, pb j = .fin (P j)) : Post env (velCl p (.fin w) v x pb) fun u => ∃ a : Fin D → ℚ,
      (∀ j, 0 ≤ a j ∧ a j ≤ c) ∧ u = p.base.rep (fun j => .fin (w * V j + a j * (P j - X j))) p.base.vmin p.base.vmax := by
  refine .bind' Post.draws fun r ⟨q, hr⟩ => .pure' ⟨fun j => c * q j, fun j => ⟨mul_nonneg h0 (hr j).2.1, mul_le_of_le_one_right h0 (hr j).2.2.le⟩, ?_⟩
  congr 1
  funext j
  rw [hv, hx, hp, hc, (hr j).1]
  simp only [mul_fin, sub_fin, add_fin]

end PSO

/-! ### Monkeys, moths, nests and flowers -/

namespace MKE

/-- C114 for a monkey that is not a king: from its personal best in the direction of the best of all, as seen from where it is, by at most
`fluctuation_coeff`. -/
theorem C114_particle (p : Par) (e : Ind D) (xb : Vec D) {c : ℚ} {X P G : Fin D → ℚ} (hc : p.fluct = .fin c) (h0 : 0 ≤ c) (hx : ∀ j, e.x j = .fin (X j))
    (hp : ∀ j, e.pb j = .fin (P j)) (hg : ∀ j, xb j = .fin (G j)) : Post env (moveParticle p e xb) fun r => Possible env r.1 r.2 ∧ ∃ a : Fin D → ℚ,
      (∀ j, 0 ≤ a j ∧ a j ≤ c) ∧ Comes env r.1 fun j => .fin (P j + a j * (G j - X j)) := by
  refine .bind' Post.draws fun r ⟨q, hr⟩ => .bind' (P := fun y => Comes env y fun j => .fin (P j + c * q j * (G j - X j))) (.repair fun rng k => ⟨rng, k, ?_⟩) fun y hy =>
    .bind' (.eval fun v hv => hv) fun v hv => .pure' ⟨hv, fun j => c * q j, fun j => ⟨mul_nonneg h0 (hr j).2.1, mul_le_of_le_one_right h0 (hr j).2.2.le⟩, hy⟩
  congr 1
  funext j
  rw [hp, hc, hg, hx, (hr j).1]
  simp only [mul_fin, sub_fin, add_fin]

end MKE

namespace MFO

/-- C114 for moths: one that is as good as its place in the order, that is where the flame of its own place is, flies straight into the flame it is
assigned; the spiral has no width. -/
theorem C114_flame {a : ℚ} {x flame : Vec D} (hx : Finites x) (hf : Finites flame) (he : ∀ q : ℚ, ∃ r : ℚ, Arith.fn .exp (.fin q) = .fin r)
    (hc : ∀ q : ℚ, ∃ r : ℚ, Arith.fn .cos (.fin q) = .fin r) : Post env (move (.fin a) x x flame) fun y => y = flame := by
  refine (Post.tabM (P := fun j v => v = flame j) fun j => .bind' .draw fun r hr => .pure' ?_).mono fun y hy => funext hy
  obtain ⟨q, rfl, _⟩ := hr.fin
  obtain ⟨X, hX⟩ := hx j
  obtain ⟨F, hF⟩ := hf j
  obtain ⟨E, hE⟩ := he (1 * ((a - 1) * q + 1))
  obtain ⟨C, hC⟩ := hc ((2 : ℕ) * (3141592653589793 / 1000000000000000) * ((a - 1) * q + 1))
  have e1 : ((Fl.fin a - 1) * Fl.fin q + 1 : Fl) = .fin ((a - 1) * q + 1) := by rw [Exact.one_fin, sub_fin, mul_fin, add_fin]
  have e2 : (1 * Fl.fin ((a - 1) * q + 1) : Fl) = .fin (1 * ((a - 1) * q + 1)) := by rw [Exact.one_fin, mul_fin]
  have e3 : (Fl.ofNat 2 * piF * Fl.fin ((a - 1) * q + 1) : Fl) = .fin ((2 : ℕ) * (3141592653589793 / 1000000000000000) * ((a - 1) * q + 1)) := by
    unfold piF lit
    rw [Exact.ofNat_fin, mul_fin, mul_fin]
    norm_num
  beta_reduce
  rw [e1, e2, e3, hE, hC, hX, hF, sub_fin, sub_self]
  show Fl.abs (Fl.fin 0) * _ * _ + _ = _
  have : Fl.abs (Fl.fin 0) = .fin 0 := by decide
  rw [this, mul_fin, mul_fin, add_fin]
  congr 1
  ring

end MFO

namespace CS

/-- C114 for nests that are found: all of them move by the same random part of the difference of two nests, in the coordinates that are discovered; each
nest is the first and the second of the two once. -/
theorem C114_found (pa : Fl) {pop : Fin N → Vec D} {X : Fin N → Fin D → ℚ} (hx : ∀ k d, pop k d = .fin (X k d)) : Post env (emptyNests pa pop) fun y =>
    ∃ r : ℚ, 0 ≤ r ∧ r < 1 ∧ ∃ i j : Fin N → Fin N, i.Bijective ∧ j.Bijective ∧ ∀ k, ∃ z, Comes env (y k) z ∧
      ∀ d, z d = pop k d ∨ z d = .fin (X k d + r * (X (i k) d - X (j k) d)) := by
  refine .bind' .any fun a _ => .bind' (.yields Yields.permIdx) fun i hi => .bind' (.yields Yields.permIdx) fun j hj => .bind' .draw fun r hr => ?_
  obtain ⟨q, rfl, h0, h1⟩ := hr.fin
  refine (Post.tabM (P := fun k (x : Vec D) => ∃ z, Comes env x z ∧ ∀ d, z d = pop k d ∨ z d = .fin (X k d + q * (X (i k) d - X (j k) d))) fun k =>
    .repair fun rng n => ⟨_, ⟨rng, n, rfl⟩, fun d => ?_⟩).mono fun y hy => ⟨q, h0, h1, i, j, hi, hj, hy⟩
  beta_reduce
  split
  · right
    rw [hx, hx, hx, Exact.one_fin, sub_fin, mul_fin, mul_fin, add_fin, mul_one]
  · left
    have : (0 : Fl) = .fin 0 := rfl
    rw [hx, hx, hx, this, sub_fin, mul_fin, mul_fin, add_fin, mul_zero, add_zero]

end CS

namespace FPA

/-- C114 for local pollination (`p` at least 1): a random part of the difference of two different flowers is added to the last candidate of the flower. -/
theorem C114_local {p : Fl} (hp : .fin 1 ≤ p) (s : St D N) (i : Fin N) (xb : Vec D) {X S : Fin N → Fin D → ℚ} (hx : ∀ k d, s.pop k d = .fin (X k d))
    (hs : ∀ k d, s.sols k d = .fin (S k d)) : Post env (candidate p s i xb) fun y => ∃ j k : Fin N, j ≠ k ∧ ∃ r : ℚ, 0 ≤ r ∧ r < 1 ∧
      Comes env y fun d => .fin (S i d + r * (X j d - X k d)) := by
  refine .bind' .draw fun r hr => LOA.Post.ite (fun h => absurd h (Fl.not_lt_draw hr.2 hp)) fun _ => ?_
  refine .bind' (.yields Yields.choiceFin) fun jk hjk => .bind' .draw fun r hr => ?_
  obtain ⟨q, rfl, h0, h1⟩ := hr.fin
  refine .repair fun rng n => ⟨jk 0, jk 1, fun h => absurd (hjk h) (by decide), q, h0, h1, rng, n, ?_⟩
  congr 1
  funext d
  rw [hs, hx, hx, sub_fin, mul_fin, add_fin]

end FPA

/-! ### Hawks, fish and glowworms -/

namespace HHO

theorem dive_post (levy : Fl) (y x : Vec D) (f : Fl) : Post env (dive levy y x f) fun c => c = x ∨ ∃ v, Possible env c v ∧ v < f := by
  refine .bind' .any fun c1 _ => .bind' .any fun r _ => .bind' .any fun l _ => .bind' .any fun c2 _ => .bind' (.eval fun v hv => hv) fun f1 h1 =>
    LOA.Post.ite (fun h => .pure' (.inr ⟨f1, h1, h⟩)) fun _ => .bind' (.eval fun v hv => hv) fun f2 h2 => .pure' ?_
  split
  · exact .inr ⟨f2, h2, ‹_›⟩
  · exact .inl rfl

/-- C114 for hawks when the prey is tired (energy below one half): a hawk stays, dives to a better value, or besieges: its distance from the prey is
at most the energy times what it was, in every coordinate. -/
theorem C114_besiege (B : Box D) (levy m : Fl) {e0 : ℚ} (h0 : 0 ≤ e0) (h1 : e0 < 1 / 2) (s : St D N) (i : Fin N) (xb : Vec D) {X P : Fin D → ℚ}
    (hx : ∀ j, s.pop i j = .fin (X j)) (hp : ∀ j, xb j = .fin (P j)) : Post env (move B levy (.fin e0) m s i xb) fun y =>
      y = s.pop i ∨ (∃ v, Possible env y v ∧ v < s.fit i) ∨ ∀ j, Within (e0 * |P j - X j|) (y j) (xb j) := by
  refine .bind' .any fun jump _ => .bind' (P := fun u => ∃ q : ℚ, u = .fin q ∧ |q| ≤ 1) (.unif fun u h0 h1 => ?_) fun u hu => .bind' .any fun r _ => ?_
  · have e1 : (-1 : Fl) = .fin (-1) := by rw [Exact.one_fin]; rfl
    rw [e1] at h0
    rw [Exact.one_fin] at h1
    obtain ⟨q, rfl, h⟩ := Fl.fin_between h0 h1
    exact ⟨q, rfl, abs_le.2 h⟩
  · obtain ⟨q, rfl, hq⟩ := hu
    have hle : |e0 * q| ≤ e0 := by rw [abs_mul, abs_of_nonneg h0]; exact mul_le_of_le_one_right h0 hq
    have hlt : |e0 * q| < 1 / 2 := hle.trans_lt h1
    have ea : Fl.abs (Fl.fin (e0 * q)) = .fin |e0 * q| := rfl
    have n1 : ¬ (1 : Fl) ≤ .fin |e0 * q| := by
      rw [Exact.one_fin, Fl.fin_le_fin]; linarith
    have n2 : ¬ lit 1 2 ≤ .fin |e0 * q| := by
      unfold lit; rw [Fl.fin_le_fin]; push_cast; linarith
    have n3 : ¬ (1 : Fl) ≤ .fin (e0 * q) := by rw [Exact.one_fin]; simp; linarith [le_abs_self (e0 * q)]
    rw [mul_fin, ea]
    refine LOA.Post.ite (fun h => absurd h.1 n3) fun _ => LOA.Post.ite (fun h => absurd h.1 n1) fun _ => LOA.Post.ite (fun h => absurd h.1 n2) fun _ =>
      LOA.Post.ite (fun _ => .pure' (.inr (.inr fun j => ?_))) fun _ => LOA.Post.ite (fun h => absurd h.1 n2) fun _ => LOA.Post.ite (fun _ => ?_) fun _ => .pure' (.inl rfl)
    · refine ⟨P j - e0 * q * |P j - X j|, P j, ?_, hp j, ?_⟩
      · beta_reduce
        rw [hp, hx, sub_fin]
        show _ - _ * Fl.fin |P j - X j| = _
        rw [mul_fin, sub_fin]
      · rw [sub_sub_cancel_left, abs_neg, abs_mul, abs_abs]
        exact mul_le_mul_of_nonneg_right hle (abs_nonneg _)
    · exact (dive_post _ _ _ _).mono fun c hc => hc.imp id .inl

end HHO

namespace FSS

/-- C114 for the volitive movement of fish: a school that has gained weight contracts and one that has not expands: on the line through the fish and
the barycentre, by at most the step. -/
theorem C114_volitive {step bary : Vec D} {shrink : Bool} {i : Fin N} {school : Fin N → Fish D} {xb : Vec D} {fxb : Fl} {S Y X : Fin D → ℚ}
    (hs : ∀ j, step j = .fin (S j)) (h0 : ∀ j, 0 ≤ S j) (hb : ∀ j, bary j = .fin (Y j)) (hx : ∀ j, (school i).x j = .fin (X j)) :
    Post env (volOne step bary shrink i (school, xb, fxb)) fun a => (∀ k, k ≠ i → a.1 k = school k) ∧ ∃ t : Fin D → ℚ, (∀ j, 0 ≤ t j ∧ t j ≤ S j) ∧
      Comes env (a.1 i).x fun j => .fin (if shrink = true then X j - t j * (X j - Y j) else X j + t j * (X j - Y j)) := by
  refine .bind' (P := fun u => ∃ q : Fin D → ℚ, ∀ j, u j = .fin (q j) ∧ 0 ≤ q j ∧ q j ≤ 1) ?_ fun u ⟨q, hu⟩ => ?_
  · refine (Post.tabM (P := fun _ u => ∃ q : ℚ, u = .fin q ∧ 0 ≤ q ∧ q ≤ 1) fun j => .unif fun u h0 h1 => ?_).mono fun u h => ?_
    · rw [Exact.one_fin] at h1
      exact Fl.fin_between (lo := 0) h0 h1
    · choose q hq using h
      exact ⟨q, hq⟩
  · refine .bind' (P := fun e : Indiv D => Comes env e.x fun j => .fin (if shrink = true then X j - S j * q j * (X j - Y j) else X j + S j * q j * (X j - Y j)))
      (.bind' (P := fun y => Comes env y fun j => .fin (if shrink = true then X j - S j * q j * (X j - Y j) else X j + S j * q j * (X j - Y j)))
        (.repair fun rng k => ⟨rng, k, ?_⟩) fun y hy => .bind' .any fun v _ => .pure' hy) fun e he =>
      .pure' ⟨fun k hk => Function.update_of_ne hk _ _, fun j => S j * q j, fun j => ⟨mul_nonneg (h0 j) (hu j).2.1, mul_le_of_le_one_right (h0 j) (hu j).2.2⟩, ?_⟩
    · congr 1
      funext j
      dsimp only
      rw [hx, hb, hs, (hu j).1, sub_fin, mul_fin, mul_fin, add_fin, sub_fin]
      split <;> (congr 1; ring)
    · dsimp only
      rw [Function.update_self]
      exact he

end FSS

namespace GSO

/-- C114 for glowworms: each moves towards some glowworm, by a distance of at most `s` as `distance` measures. (Which one is another matter, see C49.) -/
theorem C114_move (B : Box D) (p : Par D) (s : St D N) (xb : Vec D) (fxb : Fl) {q : ℚ} {X : Fin N → Fin D → ℚ} {R : Fin N → Fin N → ℚ} (hs : p.s = .fin q) (h0 : 0 ≤ q)
    (hx : ∀ k d, s.pop k d = .fin (X k d)) (hR : ∀ j i, p.distance (s.pop j) (s.pop i) = .fin (R j i)) (hR0 : ∀ j i, 0 ≤ R j i) :
    Post env (iter B p s xb fxb) fun a => ∀ i, ∃ j, ∃ t : ℚ, 0 ≤ t ∧ t * R j i ≤ q ∧ Comes env (a.1.pop i) fun d => .fin (X i d + t * (X j d - X i d)) := by
  refine .bind' .any fun j _ => .bind' (P := fun pop : Fin N → Vec D => ∀ i, ∃ j, ∃ t : ℚ, 0 ≤ t ∧ t * R j i ≤ q ∧ Comes env (pop i) fun d => .fin (X i d + t * (X j d - X i d)))
    (Post.tabM (P := fun i (x : Vec D) => ∃ j, ∃ t : ℚ, 0 ≤ t ∧ t * R j i ≤ q ∧ Comes env x fun d => .fin (X i d + t * (X j d - X i d))) fun i => .repair fun rng n => ?_)
    fun pop hpop => .bind' .any fun fit _ => .bind' .any fun b _ => .pure' hpop
  have hpos : 0 < R (j i) i + ((1 : ℕ) : ℚ) / ((10 ^ 31 : ℕ) : ℚ) := add_pos_of_nonneg_of_pos (hR0 _ _) (by positivity)
  refine ⟨j i, q / (R (j i) i + ((1 : ℕ) : ℚ) / ((10 ^ 31 : ℕ) : ℚ)), div_nonneg h0 hpos.le, ?_, rng, n, ?_⟩
  · rw [div_mul_eq_mul_div, div_le_iff₀ hpos]
    exact mul_le_mul_of_nonneg_left (le_add_of_nonneg_right (by positivity)) h0
  · congr 1
    funext d
    unfold lit
    rw [hx, hx, hs, hR, add_fin, sub_fin, div_fin _ _ hpos.ne', mul_fin, add_fin]
    congr 1
    field_simp

end GSO

namespace FSS

/-- C114 for the instinctive movement of fish: the whole school is shifted by one vector, a mean of the displacements of the fish in which those that
gained more count more and those that gained nothing do not count. -/
theorem C114_instinctive {school : Fin N → Fish D} {X Y : Fin N → Fin D → ℚ} {G : Fin N → ℚ} (hx : ∀ i j, (school i).x j = .fin (X i j))
    (hd : ∀ i j, (school i).dPos j = .fin (Y i j)) (hg : ∀ i, (school i).dCost = .fin (G i)) (h0 : ∀ i, 0 ≤ G i) (h1 : ∃ i, G i ≠ 0) :
    Post env (instinctive school) fun s => ∃ w : Fin N → ℚ, (∀ i, 0 ≤ w i) ∧ ∑ i, w i = 1 ∧ (∀ i, G i = 0 → w i = 0) ∧ (∀ i k, G i ≤ G k → w i ≤ w k) ∧
      ∀ i, (s i).f = (school i).f ∧ Comes env (s i).x fun j => .fin (X i j + ∑ k, w k * Y k j) := by
  obtain ⟨k, hk⟩ := h1
  have hpos : 0 < ∑ i, G i := Finset.sum_pos' (fun i _ => h0 i) ⟨k, Finset.mem_univ _, (h0 k).lt_of_ne' hk⟩
  have ht : ∀ j, (vsum fun i => (school i).dCost * (school i).dPos j) = .fin (∑ i, G i * Y i j) := fun j => vsum_fin fun i => by
    rw [hg, hd, mul_fin]
  have hs : (vsum fun i => (school i).dCost) = .fin (∑ i, G i) := vsum_fin hg
  have he : Fl.eqB (Fl.fin (∑ i, G i)) 0 = false := by
    have : (0 : Fl) = .fin 0 := rfl
    rw [this]
    simpa [Fl.eqB] using hpos.ne'
  refine (Post.tabM (P := fun i (e : Fish D) => e.f = (school i).f ∧ Comes env e.x fun j => .fin (X i j + ∑ k, G k / (∑ i, G i) * Y k j)) fun i =>
    .bind' (P := fun x => Comes env x fun j => .fin (X i j + ∑ k, G k / (∑ i, G i) * Y k j)) (.repair fun rng n => ⟨rng, n, ?_⟩) fun x hx => .pure' (by exact ⟨rfl, hx⟩)).mono fun s h =>
    ⟨fun i => G i / ∑ i, G i, fun i => div_nonneg (h0 i) hpos.le, ?_, fun i hi => by beta_reduce; rw [hi, zero_div], fun i k hik => div_le_div_of_nonneg_right hik hpos.le, h⟩
  · congr 1
    funext j
    rw [hs, he, if_neg (by decide)]
    beta_reduce
    rw [ht, hx, div_fin _ _ hpos.ne', add_fin, Finset.sum_div]
    congr 2
    exact Finset.sum_congr rfl fun k _ => by ring
  · rw [← Finset.sum_div, div_self hpos.ne']

end FSS

namespace GSA

omit [Arith] [ExactOps] in
theorem minOf_post (f : Fin N → Fl) {F : Fin N → ℚ} (h : ∀ i, f i = .fin (F i)) : Post env (minOf f : Prog (Vec D) Fl) fun v => ∃ k, v = .fin (F k) ∧ ∀ i, F k ≤ F i := by
  refine (Post.yields (Yields.mk (P := fun a => a ∈ List.ofFn f ∧ ((∀ e ∈ List.ofFn f, id e ≠ .nan) → ∀ e ∈ List.ofFn f, id a ≤ id e)) fun g =>
    wp_argminRec fun a h1 h2 => ⟨⟨h1, h2⟩, rfl⟩)).mono fun v ⟨h1, h2⟩ => ?_
  obtain ⟨k, rfl⟩ := List.mem_ofFn.1 h1
  refine ⟨k, h k, fun i => ?_⟩
  have := h2 (fun e he => by obtain ⟨i, rfl⟩ := List.mem_ofFn.1 he; rw [id, h]; nofun) (f i) (List.mem_ofFn.2 ⟨i, rfl⟩)
  rw [id, id, h, h] at this
  simpa using this

/-- C114 for gravitational search: an agent keeps a random part of its velocity and is attracted, never repelled, by the others; the worst agents attract
no one. If all fitness values were equal the masses would be NaN. -/
theorem C114_attraction (p : Par) (s : St D N) (xb : Vec D) (fxb : Fl) {g ε : ℚ} {X V : Fin N → Fin D → ℚ} {F : Fin N → ℚ} (hg : p.g0 = .fin g) (g0 : 0 ≤ g)
    (hε : p.epsilon = .fin ε) (ε0 : 0 < ε) (hx : ∀ i d, s.pop i d = .fin (X i d)) (hv : ∀ i d, s.vel i d = .fin (V i d)) (hf : ∀ i, s.fit i = .fin (F i))
    (hne : ∃ i j, F i ≠ F j) (hq : ∀ q : ℚ, 0 ≤ q → ∃ r : ℚ, 0 ≤ r ∧ Arith.fn .sqrt (.fin q) = .fin r) : Post env (iter p s xb fxb) fun a =>
      ∃ w : Fin N → Fin D → ℚ, ∃ c : Fin N → Fin N → Fin D → ℚ, (∀ i d, 0 ≤ w i d ∧ w i d < 1) ∧ (∀ i j d, 0 ≤ c i j d) ∧
      (∀ j, (∀ k, F k ≤ F j) → ∀ i d, c i j d = 0) ∧ (∀ i d, a.1.vel i d = .fin (w i d * V i d + ∑ j, c i j d * (X j d - X i d))) ∧
      ∀ i, Comes env (a.1.pop i) fun d => .fin (X i d + (w i d * V i d + ∑ j, c i j d * (X j d - X i d))) := by
  refine .bind' (minOf_post s.fit hf) fun best ⟨kb, e1, hb⟩ => .bind' (minOf_post (F := fun i => -F i) (fun i => -s.fit i) fun i => by rw [hf]; rfl) fun worst ⟨kw, e2, hw⟩ =>
    .bind' .any fun v _ => ?_
  subst e1 e2
  have e3 : -(Fl.fin (-F kw)) = .fin (F kw) := by show Fl.fin (- -F kw) = _; rw [neg_neg]
  have hlt : F kb < F kw := by
    obtain ⟨i, j, hij⟩ := hne
    rcases lt_or_gt_of_ne hij with h | h
    · exact (hb i).trans_lt (h.trans_le (neg_le_neg_iff.1 (hw j)))
    · exact (hb j).trans_lt (h.trans_le (neg_le_neg_iff.1 (hw i)))
  have hd : F kb - F kw ≠ 0 := by linarith
  have hm0 : ∀ i, 0 ≤ (F i - F kw) / (F kb - F kw) := fun i => div_nonneg_of_nonpos (by have := neg_le_neg_iff.1 (hw i); linarith) (by linarith)
  have hS : 0 < ∑ i, (F i - F kw) / (F kb - F kw) := Finset.sum_pos' (fun i _ => hm0 i) ⟨kb, Finset.mem_univ _, by rw [div_self hd]; exact one_pos⟩
  obtain ⟨M, hM, hM0, hMw⟩ : ∃ M : Fin N → ℚ, (∀ i, masses s.fit (.fin (F kb)) (.fin (F kw)) i = .fin (M i)) ∧ (∀ i, 0 ≤ M i) ∧ ∀ j, (∀ k, F k ≤ F j) → M j = 0 := by
    refine ⟨fun i => (F i - F kw) / (F kb - F kw) / ∑ i, (F i - F kw) / (F kb - F kw), fun i => ?_, fun i => div_nonneg (hm0 i) hS.le, fun j hj => ?_⟩
    · have e : ∀ i, (s.fit i - .fin (F kw)) / (Fl.fin (F kb) - .fin (F kw)) = .fin ((F i - F kw) / (F kb - F kw)) := fun i => by
        rw [hf, sub_fin, sub_fin, div_fin _ _ hd]
      show (s.fit i - .fin (F kw)) / (Fl.fin (F kb) - .fin (F kw)) / vsum (fun i => (s.fit i - .fin (F kw)) / (Fl.fin (F kb) - .fin (F kw))) = _
      rw [vsum_fin e, e, div_fin _ _ hS.ne']
    · have : F j = F kw := le_antisymm (neg_le_neg_iff.1 (hw j)) (hj kw)
      simp only [this, sub_self, zero_div]
  obtain ⟨R, hR, hR0⟩ : ∃ R : Fin N → Fin N → ℚ, (∀ i j, euclid (s.pop i) (s.pop j) = .fin (R i j)) ∧ ∀ i j, 0 ≤ R i j := by
    have : ∀ i j, ∃ r : ℚ, 0 ≤ r ∧ euclid (s.pop i) (s.pop j) = .fin r := fun i j => by
      unfold euclid norm2
      rw [vsum_fin (g := fun d => (X i d - X j d) * (X i d - X j d)) fun d => by beta_reduce; rw [hx, hx, sub_fin, mul_fin]]
      exact hq _ (Finset.sum_nonneg fun d _ => mul_self_nonneg _)
    choose R h using this
    exact ⟨R, fun i j => (h i j).2, fun i j => (h i j).1⟩
  have hn : ((v.iters + 1 : ℕ) : ℚ) ≠ 0 := by positivity
  have hG : gravity p v = .fin (g / ((v.iters + 1 : ℕ) : ℚ)) := by unfold gravity; rw [hg, Exact.ofNat_fin, div_fin _ _ hn]
  rw [e3]
  refine .bind' (Post.tabM (P := fun _ (r : Vec D) => ∃ q : Fin D → ℚ, ∀ j, r j = .fin (q j) ∧ 0 ≤ q j ∧ q j < 1) fun _ => .draws) fun u hu =>
    .bind' (Post.tabM (P := fun _ (r : Vec D) => ∃ q : Fin D → ℚ, ∀ j, r j = .fin (q j) ∧ 0 ≤ q j ∧ q j < 1) fun _ => .draws) fun w hw' => ?_
  choose U hU using hu
  choose W hW using hw'
  have hRe : ∀ i j, R i j + ε ≠ 0 := fun i j => (add_pos_of_nonneg_of_pos (hR0 i j) ε0).ne'
  have hMe : ∀ i, M i + ε ≠ 0 := fun i => (add_pos_of_nonneg_of_pos (hM0 i) ε0).ne'
  have hvel : ∀ i d, w i d * s.vel i d + (vsum fun j => u j d * (gravity p v * (masses s.fit (.fin (F kb)) (.fin (F kw)) i * masses s.fit (.fin (F kb)) (.fin (F kw)) j /
      (euclid (s.pop i) (s.pop j) + p.epsilon)) * (s.pop j d - s.pop i d))) / (masses s.fit (.fin (F kb)) (.fin (F kw)) i + p.epsilon) =
      .fin (W i d * V i d + ∑ j, U j d * (g / ((v.iters + 1 : ℕ) : ℚ)) * (M i * M j / (R i j + ε)) / (M i + ε) * (X j d - X i d)) := fun i d => by
    rw [vsum_fin (g := fun j => U j d * (g / ((v.iters + 1 : ℕ) : ℚ) * (M i * M j / (R i j + ε)) * (X j d - X i d))) fun j => by
      rw [(hU j d).1, hG, hM, hM, hR, hε, hx, hx, add_fin, sub_fin, mul_fin, div_fin _ _ (hRe i j), mul_fin, mul_fin, mul_fin]]
    rw [(hW i d).1, hv, hM, hε, add_fin, div_fin _ _ (hMe i), mul_fin, add_fin, Finset.sum_div]
    congr 2
    exact Finset.sum_congr rfl fun j _ => by ring
  refine .bind' (P := fun pop : Fin N → Vec D => ∀ i, Comes env (pop i) fun d => .fin (X i d + (W i d * V i d +
      ∑ j, U j d * (g / ((v.iters + 1 : ℕ) : ℚ)) * (M i * M j / (R i j + ε)) / (M i + ε) * (X j d - X i d))))
    (Post.tabM (P := fun i (x : Vec D) => Comes env x fun d => .fin (X i d + (W i d * V i d +
      ∑ j, U j d * (g / ((v.iters + 1 : ℕ) : ℚ)) * (M i * M j / (R i j + ε)) / (M i + ε) * (X j d - X i d)))) fun i => .repair fun rng n => ⟨rng, n, ?_⟩)
    fun pop hpop => .bind' .any fun fit _ => .bind' .any fun b _ => .pure'
      ⟨W, fun i j d => U j d * (g / ((v.iters + 1 : ℕ) : ℚ)) * (M i * M j / (R i j + ε)) / (M i + ε), fun i d => (hW i d).2, fun i j d => ?_, fun j hj i d => ?_, hvel, hpop⟩
  · congr 1
    funext d
    exact (congrArg₂ (· + ·) (hx i d) (hvel i d)).trans (add_fin _ _)
  · have h1 := (hU j d).2.1
    have h2 := hM0 i
    have h3 := hM0 j
    have h4 := hR0 i j
    positivity
  · simp only [hMw j hj, mul_zero, zero_div]

/-- Two agents of different fitness and a square root of the kind supposed. -/
example : (∃ i j : Fin 2, (![0, 1] : Fin 2 → ℚ) i ≠ (![0, 1] : Fin 2 → ℚ) j) ∧ ∀ q : ℚ, 0 ≤ q → ∃ r : ℚ, 0 ≤ r ∧ @Arith.fn Ex.arith .sqrt (.fin q) = .fin r :=
  ⟨⟨0, 1, by simp⟩, fun q h => ⟨q, h, rfl⟩⟩

end GSA

/-- A velocity repair that is the identity, coefficients within the limits and different points. -/
example : ∃ p : PSO.Par 1, (∀ v, p.rep v p.vmin p.vmax = v) ∧ p.c1 = .fin 1 ∧ p.c2 = .fin (1 / 2) :=
  ⟨⟨.fin 1, .fin (1 / 2), fun _ => .fin 0, fun _ => .fin (-1), fun _ => .fin 1, fun v _ _ => v⟩, fun _ => rfl, rfl, rfl⟩

end NiaPy
