import Verif.Loops

/-!
# `Algorithm.integers` with `skip`
-/

namespace NiaPy
variable {X : Type} {C : Ctx X} {g : Ghost X}

/-- `self.integers(lo, lo + n, skip=skip)` (algorithm.py:206-221): draw, and draw again while the number is to be
skipped. The recursion is unbounded in the code (Python stops it with `RecursionError`); here it is cut off by `fuel`. -/
def integersSkip (lo n : ℕ) (skip : List ℕ) : ℕ → Prog X ℕ
  | 0 => .throw .outOfFuel
  | fuel + 1 => do
    let r ← Prog.int n
    if lo + r ∈ skip then integersSkip lo n skip fuel else return lo + r

theorem wp_integersSkip {lo n : ℕ} {skip : List ℕ} {fuel : ℕ} (ho : C.oof) {Q : ℕ → Ghost X → Prop}
    (h : ∀ r, lo ≤ r → r < lo + n → r ∉ skip → Q r g) : (integersSkip lo n skip fuel : Prog X ℕ).wp C Q g := by
  induction fuel with
  | zero => exact fun _ => ho
  | succ fuel ih =>
    simp only [integersSkip, Prog.wp_bind', Prog.wp_int]
    intro k hk
    rw [wp_ite]
    exact ⟨fun _ => ih, fun hs => h _ (by omega) (by omega) hs⟩

/-- C21: whatever the generator, a number returned by `integers(lo, hi, skip=skip)` is in range and not in `skip`. -/
theorem C21_not_skipped (env : Env X) (w : World X) (lo n : ℕ) (skip : List ℕ) (fuel r : ℕ)
    (h : ((integersSkip lo n skip fuel : Prog X ℕ).run env w).1 = .ok r) : lo ≤ r ∧ r < lo + n ∧ r ∉ skip := by
  obtain ⟨g', -, hq, -⟩ := wp_sound ⟨fun _ => True, fun _ _ => True, True, True, True, fun _ => True, True, fun _ _ => True⟩ env (fun _ _ _ => ⟨trivial, trivial⟩)
    (Or.inl trivial) (integersSkip lo n skip fuel) (fun r _ => lo ≤ r ∧ r < lo + n ∧ r ∉ skip)
    ⟨env.opt.mul w.st.xf, 0, w.events⟩ w (wp_integersSkip trivial fun r h1 h2 h3 => ⟨h1, h2, h3⟩) (fun _ _ _ _ => trivial) rfl rfl
  exact hq r h

theorem run_int (env : Env X) (w : World X) (n : ℕ) (hn : 0 < n) :
    (Prog.int n).run env w = (.ok (env.rng.int w.rk n), { w with rk := w.rk + 1 }) := by
  have h := Prog.run_lift env (.int n) w
  simp only [stepOp, if_neg (by omega : ¬ n = 0)] at h
  exact h

/-- C21: the call comes back as soon as the generator yields a number that is not skipped, with the first such number. -/
theorem C21_first_admissible (env : Env X) (w : World X) (lo n : ℕ) (hn : 0 < n) (skip : List ℕ) (k : ℕ)
    (hk : lo + env.rng.int (w.rk + k) n ∉ skip) (hpre : ∀ j, j < k → lo + env.rng.int (w.rk + j) n ∈ skip) (fuel : ℕ)
    (hf : k < fuel) :
    ((integersSkip lo n skip fuel : Prog X ℕ).run env w).1 = .ok (lo + env.rng.int (w.rk + k) n) := by
  induction k generalizing w fuel with
  | zero =>
    obtain ⟨f, rfl⟩ := Nat.exists_eq_succ_of_ne_zero (by omega : fuel ≠ 0)
    simp only [Nat.add_zero] at hk
    simp [integersSkip, Prog.run_bind, run_int env w n hn, hk]
  | succ k ih =>
    obtain ⟨f, rfl⟩ := Nat.exists_eq_succ_of_ne_zero (by omega : fuel ≠ 0)
    have h0 := hpre 0 (by omega)
    simp only [Nat.add_zero] at h0
    simp only [integersSkip, Prog.bind_def, Prog.run_bind, run_int env w n hn, if_pos h0]
    have e : ∀ j, w.rk + 1 + j = w.rk + (j + 1) := fun j => by omega
    have := ih { w with rk := w.rk + 1 } (by simpa [e] using hk) (fun j hj => by simpa [e] using hpre (j + 1) (by omega)) f
      (by omega)
    simpa [e] using this

/-- C21, the way it goes wrong: if every number of the range is to be skipped, the call never comes back. -/
theorem C21_all_skipped_diverges (env : Env X) (w : World X) (lo n : ℕ) (hn : 0 < n) (skip : List ℕ)
    (h : ∀ r, lo ≤ r → r < lo + n → r ∈ skip) (fuel : ℕ) :
    ((integersSkip lo n skip fuel : Prog X ℕ).run env w).1 = .error .outOfFuel := by
  induction fuel generalizing w with
  | zero => rfl
  | succ fuel ih =>
    have hr := env.rng.int_lt w.rk n hn
    simp only [integersSkip, Prog.bind_def, Prog.run_bind, run_int env w n hn, if_pos (h _ (by omega) (by omega : lo + env.rng.int w.rk n < lo + n))]
    exact ih _

end NiaPy
