import Verif.Limits
import Verif.Elite
import Verif.Loose
import Verif.Sizes

/-!
# Ages of trees and trials of bees (C123)
-/

namespace NiaPy
variable [Arith] {D N : ℕ} {env : Env (Vec D)} {B : Box D}

namespace FOA

omit [Arith] in
theorem freshen_age {l : List (Tree D)} {n : ℕ} (h : ∀ t ∈ l, t.age ≤ n) : ∀ t ∈ freshen l, t.age ≤ n := by
  intro t ht
  unfold freshen at ht
  split at ht
  · rename_i k _
    obtain ⟨j, hj⟩ := List.mem_iff_getElem?.1 ht
    rw [List.getElem?_modify] at hj
    obtain ⟨u, hu, rfl⟩ := Option.map_eq_some_iff.1 hj
    have := h u (List.mem_of_getElem? hu)
    split
    · exact Nat.zero_le _
    · exact this
  · exact h t ht

/-- C123: after every iteration every tree of the forest has at most the age `lifetime`. -/
theorem C123_age (p : Par) {ncb : ℕ} {hist : List ((alg B N p).σ × Vec D × Fl)} {w : World (Vec D)} (ht : (alg B N p).Trace env ncb hist w) :
    ∀ r ∈ hist, ∀ t ∈ (show List (Tree D) from r.1), t.age ≤ p.lifetime := by
  refine (ht.post (P := fun r => ∀ t ∈ (show List (Tree D) from r.1), t.age ≤ p.lifetime) (R := fun _ _ => True) ?_ ?_).1
  · rintro s b ⟨w, w', hs⟩ -
    have : Post env (init B N) fun s => ∀ t ∈ s, t.age ≤ p.lifetime := .bind' .any fun a _ => .pure' fun t ht => by
      obtain ⟨i, rfl⟩ := List.mem_ofFn.1 ht
      exact Nat.zero_le _
    exact this w w' s hs
  · intro r _
    refine .bind' .any fun seeds _ => .bind' (evalTrees_post _) fun ev hev => .bind' (.yields Yields.sortRecs) fun l hs =>
      .bind' (P := fun pop : List (Tree D) => ∀ t ∈ pop, t.age ≤ p.lifetime) ?_ fun pop hpop => .bind' .any fun best _ => .pure' ⟨freshen_age hpop, trivial⟩
    have hk : ∀ t ∈ l.take p.areaLimit, t.age ≤ p.lifetime := fun t ht => by
      obtain ⟨u, hu, -, ha, -⟩ := forall₂_right hev (hs.1.mem_iff.1 (List.mem_of_mem_take ht))
      rw [ha]
      rcases List.mem_append.1 hu with hu | hu
      · have := (List.mem_filter.1 hu).2
        simpa using this
      · obtain ⟨x, -, rfl⟩ := List.mem_map.1 hu
        exact Nat.zero_le _
    refine LOA.Post.ite (fun _ => .bind' .any fun seeds _ => .bind' (evalTrees_post _) fun new hn => .pure' fun t ht => ?_) fun _ => .pure' hk
    rcases List.mem_append.1 ht with ht | ht
    · exact hk t ht
    · obtain ⟨u, hu, -, ha, -⟩ := forall₂_right hn ht
      obtain ⟨x, -, rfl⟩ := List.mem_map.1 hu
      rw [ha]
      exact Nat.zero_le _

theorem globalPhase_length (p : Par) {q : ℚ} (hq : p.transferRate = .fin q) (h0 : 0 ≤ q) (kept : List (Tree D)) (cs : List (Vec D)) :
    Post env (globalPhase B p kept cs) fun r => (r.length : ℚ) ≤ kept.length + q * cs.length := by
  have hf : ((scaleNat p.transferRate cs.length : ℕ) : ℚ) ≤ q * cs.length := by
    have hn : (0 : ℚ) ≤ q * cs.length := mul_nonneg h0 (Nat.cast_nonneg _)
    rw [hq]
    show ((⌊q * cs.length⌋.toNat : ℕ) : ℚ) ≤ _
    have h2 : ((⌊q * cs.length⌋.toNat : ℕ) : ℤ) = ⌊q * cs.length⌋ := Int.toNat_of_nonneg (Int.floor_nonneg.2 hn)
    have h3 := Int.floor_le (q * (cs.length : ℚ))
    rw [← h2] at h3
    exact_mod_cast h3
  refine LOA.Post.ite (fun _ => .bind' (P := fun seeds : List (Vec D) => seeds.length = scaleNat p.transferRate cs.length) (.bind' .any fun idx _ => Post.mapMLen.mono fun r h => by rw [h]; simp)
    fun seeds hs => .bind' (evalTrees_post _) fun new hn => .pure' ?_) fun _ => .pure' ?_
  · have := hn.length_eq
    rw [List.length_map, hs] at this
    rw [List.length_append, ← this]
    push_cast
    linarith
  · have : (0 : ℚ) ≤ q * cs.length := mul_nonneg h0 (Nat.cast_nonneg _)
    linarith

/-- C103, what holds for the forest: its size changes but stays bounded if `transfer_rate * (1 + local_seeding_changes) < 1`. With the default parameters and at most 25
trees in the beginning there are never more than 25. -/
theorem C103_foa_partial (p : Par) {q : ℚ} (hq : p.transferRate = .fin q) (h0 : 0 ≤ q) {K : ℕ} (hN : N ≤ K) (hK : p.areaLimit + q * ((1 + p.localChanges) * K) ≤ K) {ncb : ℕ}
    {hist : List ((alg B N p).σ × Vec D × Fl)} {w : World (Vec D)} (ht : (alg B N p).Trace env ncb hist w) : ∀ r ∈ hist, List.length (α := Tree D) r.1 ≤ K := by
  refine (ht.post (P := fun r => List.length (α := Tree D) r.1 ≤ K) (R := fun _ _ => True) ?_ ?_).1
  · rintro s b ⟨w, w', hs⟩ -
    have : Post env (init B N) fun s => s.length ≤ K := .bind' .any fun a _ => .pure' (by simpa using hN)
    exact this w w' s hs
  · rintro ⟨s, xb, fxb⟩ (hs : List.length (α := Tree D) s ≤ K)
    obtain ⟨s, rfl⟩ : ∃ s' : List (Tree D), s' = s := ⟨s, rfl⟩
    refine .bind' (P := fun seeds : List (Vec D) => seeds.length ≤ p.localChanges * K) (Post.mapMLen.mono fun r h => ?_) fun seeds hseeds => .bind' (evalTrees_post _) fun ev hev =>
      .bind' (.yields Yields.sortRecs) fun l hl => .bind' (globalPhase_length p hq h0 _ _) fun pop hpop => .bind' .any fun best _ => .pure' ⟨?_, trivial⟩
    · have h1 : (List.filter (fun t : Tree D => decide (t.age = 0)) s).length ≤ K := (List.length_filter_le ..).trans hs
      rw [h, List.length_flatMap]
      simp only [List.length_replicate, List.map_const', List.sum_replicate, List.length_map, smul_eq_mul]
      rw [Nat.mul_comm]
      exact Nat.mul_le_mul_left _ h1
    · have hlen : List.length (α := Tree D) (freshen pop) = pop.length := by
        unfold freshen
        split <;> simp
      show List.length (α := Tree D) (freshen pop) ≤ K
      rw [hlen]
      have h1 := hl.1.length_eq
      have h2 := hev.length_eq
      have h3 := List.length_eq_length_filter_add (l := List.map (fun t : Tree D => (t.x, t.age + 1)) s) (fun t => decide (p.lifetime < t.2))
      simp only [List.length_append, List.length_map, List.length_take, List.length_drop] at hpop h2 h3
      have h4 : (List.filter (fun t : Vec D × ℕ => decide (¬ p.lifetime < t.2)) (List.map (fun t : Tree D => (t.x, t.age + 1)) s)).length =
          (List.filter (fun t : Vec D × ℕ => !decide (p.lifetime < t.2)) (List.map (fun t : Tree D => (t.x, t.age + 1)) s)).length := by
        congr 2
        funext t
        exact decide_not
      rw [h4] at h2
      generalize (List.filter (fun t : Vec D × ℕ => decide (p.lifetime < t.2)) (List.map (fun t : Tree D => (t.x, t.age + 1)) s)).length = dead at hpop h3
      generalize (List.filter (fun t : Vec D × ℕ => !decide (p.lifetime < t.2)) (List.map (fun t : Tree D => (t.x, t.age + 1)) s)).length = alive at h2 h3
      have h5 : dead + (l.length - p.areaLimit) ≤ (1 + p.localChanges) * K := by
        have : (1 + p.localChanges) * K = K + p.localChanges * K := by ring
        omega
      have h6 : (((dead + (l.length - p.areaLimit) : ℕ)) : ℚ) ≤ (1 + p.localChanges) * K := by exact_mod_cast h5
      have h7 : ((min p.areaLimit l.length : ℕ) : ℚ) ≤ p.areaLimit := by exact_mod_cast min_le_left _ _
      have h8 := mul_le_mul_of_nonneg_left h6 h0
      have : (pop.length : ℚ) ≤ K := by linarith
      exact_mod_cast this

end FOA

namespace ABC

/-- Employed bees leave every source with fewer than `limit` trials, whatever there was before. -/
theorem employed_trials {opt : OptType} {limit : ℕ} (hl : 0 < limit) (s : Loc D N) : Post env (forFin (N / 2) (employed opt B limit) s) fun s' => ∀ i, s'.trials i < limit := by
  refine (Post.countFin (fun k (s' : Loc D N) => ∀ i : Fin (N / 2), i.1 < k → s'.trials i < limit) (fun i hi => absurd hi (Nat.not_lt_zero _)) fun i s hs => ?_).mono
    fun s' h i => h i i.2
  have key : ∀ (t : Fin (N / 2) → ℕ) (n : ℕ), n < limit → (∀ j : Fin (N / 2), j ≠ i → t j = s.trials j) → t i = n → ∀ j : Fin (N / 2), j.1 < i.1 + 1 → t j < limit := by
    intro t n hn ho hi j hj
    by_cases h : j = i
    · rw [h, hi]; exact hn
    · rw [ho j h]
      exact hs j (by have : j.1 ≠ i.1 := fun e => h (Fin.ext e); omega)
  refine .bind' .any fun k _ => .bind' .any fun n _ => .bind' .any fun y _ => LOA.Post.ite (fun _ => .pure' ?_) fun _ => LOA.Post.ite (fun _ => ?_) fun h => .pure' ?_
  · exact key _ 0 hl (fun j hj => Function.update_of_ne hj _ _) (Function.update_self ..)
  · refine .bind' .any fun y _ => .pure' ?_
    exact key _ 0 hl (fun j hj => by simp [Function.update_of_ne hj]) (Function.update_self ..)
  · exact key _ _ (not_le.1 h) (fun j hj => Function.update_of_ne hj _ _) rfl

theorem onlooker_trials {opt : OptType} {limit fuel m : ℕ} (hl : 0 < limit) {last i : Fin (N / 2)} {s : Loc D N} (h : ∀ j, s.trials j < limit + m) (hz : s.trials last < limit) :
    Post env (onlooker opt B limit fuel last i s) fun s' => (∀ j, s'.trials j < limit + (m + 1)) ∧ s'.trials last < limit := by
  have upd : ∀ (t : Fin (N / 2) → ℕ) (k : Fin (N / 2)), (∀ j, t j < limit + (m + 1)) → (t last < limit ∨ k = last) →
      (∀ j, Function.update t k 0 j < limit + (m + 1)) ∧ Function.update t k 0 last < limit := by
    intro t k ht hk
    refine ⟨fun j => ?_, ?_⟩
    · by_cases hj : j = k
      · subst hj; rw [Function.update_self]; omega
      · rw [Function.update_of_ne hj]; exact ht j
    · by_cases hj : last = k
      · subst hj; simpa using hl
      · rw [Function.update_of_ne hj]; exact hk.resolve_right fun e => hj e.symm
  have inc : ∀ j, Function.update s.trials i (s.trials i + 1) j < limit + (m + 1) := fun j => by
    by_cases hj : j = i
    · subst hj; have := h j; simp; omega
    · rw [Function.update_of_ne hj]; have := h j; omega
  refine .bind' .any fun k _ => .bind' .any fun n _ => .bind' .any fun y _ => LOA.Post.ite (fun _ => .pure' ?_) fun _ => LOA.Post.ite (fun _ => ?_) fun h' => .pure' ?_
  · exact upd _ _ (fun j => by have := h j; omega) (.inl hz)
  · exact .bind' .any fun y _ => .pure' (upd _ _ inc (.inr rfl))
  · exact ⟨inc, not_le.1 h'⟩

theorem onlookers_trials {opt : OptType} {limit fuel0 : ℕ} (hl : 0 < limit) {prob : Fin (N / 2) → Fl} {last : Fin (N / 2)} (fuel : ℕ) : ∀ {m : ℕ} {i : Fin (N / 2)} {s : Loc D N},
    m ≤ N / 2 → (∀ j, s.trials j < limit + m) → s.trials last < limit →
    Post env (onlookers opt B limit fuel0 prob last fuel m i s) fun s' => (∀ j, s'.trials j < limit + N / 2) ∧ s'.trials last < limit := by
  induction fuel with
  | zero => intro m i s _ _ _; exact LOA.Post.throw
  | succ fuel ih =>
    intro m i s hm h hz
    refine LOA.Post.ite (fun hlt => .bind' .any fun r _ => .bind' (P := fun a : ℕ × Loc D N => a.1 ≤ N / 2 ∧ (∀ j, a.2.trials j < limit + a.1) ∧ a.2.trials last < limit) ?_ fun a ha =>
      ih ha.1 ha.2.1 ha.2.2) fun _ => .pure' ⟨fun j => by have := h j; omega, hz⟩
    exact LOA.Post.ite (fun _ => .bind' (onlooker_trials hl h hz) fun s' hs => .pure' ⟨hlt, hs⟩) fun _ => .pure' ⟨hm, h, hz⟩

/-- C123: with a positive limit no source has ever been tried `limit + food_number` times in vain, and the last one never `limit` times. -/
theorem C123_trials_partial (opt : OptType) {limit fuel : ℕ} (hl : 0 < limit) {ncb : ℕ} {hist : List ((alg opt B N limit fuel).σ × Vec D × Fl)} {w : World (Vec D)}
    (ht : (alg opt B N limit fuel).Trace env ncb hist w) :
    ∀ r ∈ hist, ∀ i : Fin (N / 2), St.trials (D := D) (N := N) r.1 i < limit + N / 2 ∧ (i.1 + 1 = N / 2 → St.trials (D := D) (N := N) r.1 i < limit) := by
  refine (ht.post (P := fun r => ∀ i : Fin (N / 2), St.trials (D := D) (N := N) r.1 i < limit + N / 2 ∧ (i.1 + 1 = N / 2 → St.trials (D := D) (N := N) r.1 i < limit))
    (R := fun _ _ => True) ?_ ?_).1
  · rintro s b ⟨w, w', hs⟩ -
    have : Post env (do let pop ← defaultIndividualInit opt B N; return (⟨pop, fun _ => 0⟩ : St D N)) fun s => ∀ i, s.trials i = 0 := .bind' .any fun a _ => .pure' fun _ => rfl
    have := this w w' s hs
    intro i
    have h0 : St.trials (D := D) (N := N) s i = 0 := this i
    simp only [h0]
    omega
  · rintro ⟨s, xb, fxb⟩ -
    refine .bind' (employed_trials hl _) fun s hs => .bind' (P := fun s : Loc D N => ∀ i : Fin (N / 2), s.trials i < limit + N / 2 ∧ (i.1 + 1 = N / 2 → s.trials i < limit)) ?_ fun s h => .pure' ⟨h, trivial⟩
    by_cases h : 0 < N / 2
    · rw [dif_pos h]
      refine (onlookers_trials (fuel0 := fuel) hl fuel (Nat.zero_le _) hs (hs _)).mono fun s' hs' i => ⟨hs'.1 i, fun hi => ?_⟩
      have : i = ⟨N / 2 - 1, by omega⟩ := Fin.ext (by simp; omega)
      rw [this]
      exact hs'.2
    · rw [dif_neg h]
      exact .pure' fun i => absurd i.2 (by omega)

omit [Arith] in
/-- C123 is false with `limit` itself: onlookers look at the trials of the last source and not of the one that was tried, so that there is a run in which another source
has been tried more than `limit` times in vain after an iteration. The bound of `C123_trials_partial`, fewer than 3, is attained. -/
theorem C123_limit_false : ∃ (env : Env (Vec 1)) (w w1 w2 : World (Vec 1)) (s : St 1 4) (xb : Vec 1) (fxb : Fl) (r : St 1 4 × Vec 1 × Fl),
    (@alg Ex.arith 1 .minimization (Ex.box 1) 4 1 30).init.run env w = (.ok s, w1) ∧ (@iter Ex.arith 1 4 .minimization (Ex.box 1) 1 30 s xb fxb).run env w1 = (.ok r, w2) ∧
    r.1.trials ⟨0, by decide⟩ = 2 := by
  have key : (match (@alg Ex.arith 1 .minimization (Ex.box 1) 4 1 30).init.run (Ex.env2 50) { World.init .minimization with rk := 2 } with
    | (.ok (s : St 1 4), w1) => (match (@iter Ex.arith 1 4 .minimization (Ex.box 1) 1 30 s (s.pop 0).x (s.pop 0).f).run (Ex.env2 50) w1 with
      | (.ok r, _) => decide (r.1.trials ⟨0, by decide⟩ = 2)
      | _ => false)
    | _ => false) = true := by decide +kernel
  split at key
  · rename_i s w1 h1
    split at key
    · rename_i r w2 h2
      exact ⟨_, _, w1, w2, s, _, _, r, h1, h2, of_decide_eq_true key⟩
    · cases key
  · cases key

end ABC

namespace DE

omit [Arith] in
theorem maxVal_spec {l : List Fl} (h : maxVal l ≠ .nan) : ∀ v ∈ l, v ≤ maxVal l := by
  have key : ∀ (l : List Fl) (m : Fl), l.foldl (fun m v => if m = .nan then m else if v = .nan then v else if m < v then v else m) m ≠ .nan →
      m ≤ l.foldl (fun m v => if m = .nan then m else if v = .nan then v else if m < v then v else m) m ∧
      ∀ v ∈ l, v ≤ l.foldl (fun m v => if m = .nan then m else if v = .nan then v else if m < v then v else m) m := by
    intro l
    induction l with
    | nil => intro m hm; exact ⟨Fl.le_refl hm, nofun⟩
    | cons v l ih =>
      intro m hm
      rw [List.foldl_cons] at hm ⊢
      obtain ⟨h1, h2⟩ := ih _ hm
      generalize l.foldl _ _ = t at h1 h2
      by_cases hmn : m = .nan
      · rw [if_pos hmn, hmn] at h1; exact absurd h1 (by simp)
      rw [if_neg hmn] at h1
      by_cases hvn : v = .nan
      · rw [if_pos hvn, hvn] at h1; exact absurd h1 (by simp)
      rw [if_neg hvn] at h1
      have : m ≤ t ∧ v ≤ t := by
        split at h1
        · rename_i hlt; exact ⟨Fl.le_trans (Fl.le_of_lt hlt) h1, h1⟩
        · rename_i hlt
          refine ⟨h1, Fl.le_trans ?_ h1⟩
          rcases Fl.le_total hvn hmn with h | h
          · exact h
          · rcases Fl.lt_or_eq_of_le h with h | h
            · exact absurd h hlt
            · rw [h]; exact Fl.le_refl hvn
      exact ⟨this.1, fun u hu => (List.mem_cons.1 hu).elim (fun e => e ▸ this.2) (h2 u)⟩
  exact (key l _ h).2

theorem older_age {age : AgeArgs → Fl} {a w b : Fl} {M : ℕ} {l l' : List (Ind D ℕ)} (hM : ∀ e ∈ l, ∀ life, pyRound (age ⟨e.f, a, w, b⟩) = .ok life → life ≤ Fl.ofNat M)
    (h : older age a w b l = .ok l') : ∀ e ∈ l', e.ext ≤ M := by
  induction l generalizing l' with
  | nil => cases h; simp
  | cons c l ih =>
    simp only [older, bind, Except.bind] at h
    split at h
    · cases h
    rename_i life hlife
    split at h
    · cases h
    rename_i rest hr
    cases h
    intro e he
    split at he
    · rename_i hle
      rcases List.mem_cons.1 he with rfl | he
      · have h1 := hM c (by simp) _ hlife
        have h2 : Fl.ofNat (c.ext + 1) ≤ Fl.ofNat M := Fl.le_trans hle h1
        have h3 : ((c.ext + 1 : ℕ) : ℚ) ≤ M := by simpa [Fl.ofNat] using h2
        exact_mod_cast h3
      · exact ih (fun e he => hM e (by simp [he])) hr e he
    · exact ih (fun e he => hM e (by simp [he])) hr e he

theorem born_age {opt : OptType} {n : ℕ} : Post env (mapM' (List.range n) fun _ => randInd opt B (0 : ℕ)) fun r => ∀ e ∈ r, e.ext = 0 :=
  (FOA.mapM_post (P := fun _ e => e.ext = 0) fun _ => .bind' .any fun _ _ => .pure' rfl).mono fun r h e he => by
    obtain ⟨_, -, hu⟩ := FOA.forall₂_right h he
    exact hu

/-- What the function for the lifetime is given in a run: the best value, that of the individual and the worst one are in order, unless the best or the worst is NaN. -/
def InOrder (a : AgeArgs) : Prop := (a.best ≠ .nan → a.best ≤ a.f) ∧ (a.worst ≠ .nan → a.f ≤ a.worst)

omit [Arith] in
theorem argmin_first (l : List (Ind D ℕ)) : Post env (argminRec (·.f) l) fun x => x.f ≠ .nan → ∀ e ∈ l, x.f ≤ e.f := by
  refine .ofExcept fun x hx hn e he => ?_
  split at hx
  · cases hx
  · rename_i k hk
    split at hx
    · cases hx
    · rename_i y hy
      cases hx
      exact argmin_le hk (by simp [hy]) hn _ (List.mem_map_of_mem he)

/-- C123 for aging differential evolution: with a lifetime of at most `M`, no individual is older than `M` at the end of an iteration. -/
theorem C123_aging (opt : OptType) (strat : Strategy D) (f cr : Fl) (p : AgePar) (age : AgePar → AgeArgs → Fl) {M : ℕ}
    (hM : ∀ args life, InOrder args → pyRound (age p args) = .ok life → life ≤ Fl.ofNat M) {ncb : ℕ} {hist : List ((algAging opt B N strat f cr p age).σ × Vec D × Fl)} {w : World (Vec D)}
    (ht : (algAging opt B N strat f cr p age).Trace env ncb hist w) : ∀ r ∈ hist, ∀ e ∈ (show List (Ind D ℕ) from r.1), e.ext ≤ M := by
  refine (ht.post (P := fun r => ∀ e ∈ (show List (Ind D ℕ) from r.1), e.ext ≤ M) (R := fun _ _ => True) ?_ ?_).1
  · rintro s b ⟨w, w', hs⟩ -
    have : Post env (init opt B N (0 : ℕ)) fun s => ∀ e ∈ s, e.ext ≤ M :=
      .bind' (Post.tabM (P := fun _ e => e.ext = 0) fun i => .bind' .any fun _ _ => .pure' rfl) fun a ha => .pure' fun t ht => by
        obtain ⟨i, rfl⟩ := List.mem_ofFn.1 ht
        rw [ha i]
        exact Nat.zero_le _
    exact this w w' s hs
  · rintro ⟨l, xb, fxb⟩ -
    refine .bind' .any fun new _ => .bind' (P := fun a : List (Ind D ℕ) × Vec D × Fl => ∀ e ∈ a.1, e.ext ≤ M) ?_ fun a ha =>
      .bind' (P := fun l : List (Ind D ℕ) => ∀ e ∈ l, e.ext ≤ M) ?_ fun l hl => .bind' .any fun b _ => .pure' ⟨hl, trivial⟩
    · refine .bind' .any fun a _ => .bind' .any fun born _ => .bind' .any fun b _ => .bind' (P := fun l : List (Ind D ℕ) => ∀ e ∈ l, e.ext ≤ M) ?_ fun l hl => .pure' hl
      refine .bind' (argmin_first _) fun b hb =>
        .bind' (.ofExcept fun l' h => older_age (fun e he life hlife => hM _ life ⟨fun hb' => hb hb' e he, fun hw => ?_⟩ hlife) h) fun l' hl' => LOA.Post.ite (fun _ => ?_) fun _ => .pure' hl'
      · exact maxVal_spec hw _ (List.mem_map_of_mem he)
      · exact born_age.mono fun r h e he => by rw [h e he]; exact Nat.zero_le _
    · refine LOA.Post.ite (fun _ => .bind' .any fun v _ => LOA.Post.ite (fun _ => .pure' ha) fun _ => .bind' .any fun ni _ =>
        .bind' (FOA.mapM_post (P := fun i o => ∀ e, o = some e → e = a.1.get i) fun i => LOA.Post.ite (fun _ => .bind' .any fun r _ => .pure' fun e h => ?_)
          fun _ => .pure' fun e h => (Option.some.inj h).symm) fun keep hk => .pure' fun e he => ?_) fun _ => .pure' ha
      · split at h
        · exact (Option.some.inj h).symm
        · cases h
      · obtain ⟨o, ho, he⟩ := List.mem_filterMap.1 he
        obtain ⟨i, -, hi⟩ := FOA.forall₂_right hk ho
        rw [hi e he]
        exact ha _ (List.get_mem ..)

/-- C123 with the function for the lifetime that is the default, `proportional`, and an integer `max_lifetime`: nobody gets older than that. `round` has only to respect
that integer. -/
theorem C123_proportional (opt : OptType) (strat : Strategy D) (f cr : Fl) (p : AgePar) {M : ℕ} (hp : p.maxLife = Fl.ofNat M)
    (hr : ∀ v, v ≤ Fl.ofNat M → Arith.fn .round v ≤ Fl.ofNat M) {ncb : ℕ} {hist : List ((algAging opt B N strat f cr p proportional).σ × Vec D × Fl)} {w : World (Vec D)}
    (ht : (algAging opt B N strat f cr p proportional).Trace env ncb hist w) : ∀ r ∈ hist, ∀ e ∈ (show List (Ind D ℕ) from r.1), e.ext ≤ M := by
  refine C123_aging opt strat f cr p proportional (fun args life _ h => ?_) ht
  unfold proportional at h
  generalize (if args.avg = .pinf ∨ args.avg = .ninf then p.maxLife else p.minLife + p.mu * args.avg / args.f) = v at h
  rw [hp] at h
  have key : pyMin v (Fl.ofNat M) = .nan ∨ pyMin v (Fl.ofNat M) = .pinf ∨ pyMin v (Fl.ofNat M) ≤ Fl.ofNat M := by
    unfold pyMin
    split
    · exact .inr (.inr (by simp [Fl.ofNat]))
    · rename_i hlt
      cases v with
      | nan => exact .inl rfl
      | pinf => exact .inr (.inl rfl)
      | ninf => exact .inr (.inr rfl)
      | fin q => exact .inr (.inr (by simpa [Fl.ofNat] using hlt))
  rcases key with e | e | e
  · rw [e] at h; cases h
  · rw [e] at h; cases h
  · unfold pyRound at h
    split at h <;> cases h
    exact hr _ e

omit [Arith] in
theorem infOf_div (a r : ℚ) (v : Fl) : Fl.divX (Fl.infOf a) v ≠ .fin r := by
  unfold Fl.infOf
  split
  · cases v <;> simp only [Fl.divX]
    all_goals first | (split <;> simp) | simp
  · split
    · cases v <;> simp only [Fl.divX]
      all_goals first | (split <;> simp) | simp
    · simp [Fl.divX]

omit [Arith] in
theorem divX_nan (x : Fl) : Fl.divX x .nan = .nan := by cases x <;> rfl

omit [Arith] in
theorem addX_nan (x : Fl) : Fl.addX x .nan = .nan := by cases x <;> rfl

omit [Arith] in
/-- A share of `c`. -/
theorem share_le {c r : ℚ} (hc : 0 ≤ c) {x y z : Fl} (h1 : z ≤ x) (h2 : x ≤ y) (h : Fl.divX (Fl.mulX (.fin c) (Fl.addX x (-y))) (Fl.addX z (-y)) = .fin r) : r ≤ c := by
  cases x with
  | nan => cases h
  | pinf =>
    cases y with
    | pinf => cases h
    | _ => simp at h2
  | ninf =>
    cases y with
    | nan => cases h
    | ninf => cases h
    | _ => exact absurd h (infOf_div _ _ _)
  | fin x =>
    cases y with
    | nan => cases h
    | ninf => simp at h2
    | pinf => exact absurd h (infOf_div _ _ _)
    | fin y =>
      cases z with
      | nan => simp at h1
      | pinf => simp at h1
      | ninf => cases h; exact hc
      | fin z =>
        simp only [Fl.fin_le_fin] at h1 h2
        have h : (if z + -y = 0 then Fl.infOf (c * (x + -y)) else Fl.fin (c * (x + -y) / (z + -y))) = .fin r := h
        split at h
        · exact absurd (h ▸ rfl : Fl.divX (Fl.infOf (c * (x + -y))) (.fin 1) = Fl.divX (.fin r) (.fin 1)) (by simp only [Fl.divX]; exact fun e => infOf_div _ _ (.fin 1) (e.trans (if_neg one_ne_zero)))
        · rename_i hne
          cases h
          have hlt : z + -y < 0 := lt_of_le_of_ne (by linarith) hne
          rw [div_le_iff_of_neg hlt]
          exact mul_le_mul_of_nonneg_left (by linarith) hc

omit [Arith] in
theorem addX_fin {q t : ℚ} {v : Fl} (h : Fl.addX (.fin q) v = .fin t) : ∃ r, v = .fin r ∧ t = q + r := by
  cases v <;> simp [Fl.addX] at h
  exact ⟨_, rfl, h.symm⟩

omit [Arith] in
theorem round_fin {fn : Fn → Fl → Fl} {v life : Fl} (h : @pyRound (exactArith fn) v = .ok life) : ∃ q, v = .fin q ∧ life = fn .round v := by
  cases v <;> simp [pyRound] at h
  exact ⟨_, rfl, h.symm⟩

omit [Arith] in
/-- C123 with `linear`, in exact arithmetic: nobody gets older than `max_lifetime`. -/
theorem C123_linear (fn : Fn → Fl → Fl) (opt : OptType) (strat : Strategy D) (f cr : Fl) (p : AgePar) {m : ℚ} {M : ℕ} (hm : p.minLife = .fin m) (hp : p.maxLife = Fl.ofNat M) (hmM : m ≤ M)
    (hr : ∀ v, v ≤ Fl.ofNat M → fn .round v ≤ Fl.ofNat M) {ncb : ℕ} {hist : List ((@algAging (exactArith fn) D opt B N strat f cr p (@linear (exactArith fn))).σ × Vec D × Fl)}
    {w : World (Vec D)} (ht : (@algAging (exactArith fn) D opt B N strat f cr p (@linear (exactArith fn))).Trace env ncb hist w) :
    ∀ r ∈ hist, ∀ e ∈ (show List (Ind D ℕ) from r.1), e.ext ≤ M := by
  let := exactArith fn
  refine C123_aging opt strat f cr p linear (fun args life ho h => ?_) ht
  obtain ⟨q, hq, rfl⟩ := round_fin h
  refine hr _ ?_
  rw [hq]
  have hmu : Fl.ofNat 2 * p.mu = .fin (M - m) := by
    have h0 : |(M : ℚ) + -m| = M - m := by rw [← sub_eq_add_neg]; exact abs_of_nonneg (by linarith)
    rw [AgePar.mu, hm, hp]
    show Fl.mulX (.fin (2 : ℕ)) (Fl.divX (.fin |(M : ℚ) + -m|) (.fin (2 : ℕ))) = _
    rw [h0]
    simp only [Fl.divX, Fl.mulX]
    norm_num [Fl.mulX]
    ring
  have hq : Fl.addX p.minLife (Fl.divX (Fl.mulX (Fl.ofNat 2 * p.mu) (Fl.addX args.f (-args.worst))) (Fl.addX args.best (-args.worst))) = .fin q := hq
  rw [hmu, hm] at hq
  obtain ⟨r, hr, rfl⟩ := addX_fin hq
  have hw : args.worst ≠ .nan := fun h => by rw [h, Fl.neg_nan, addX_nan] at hr; cases hr
  have hb : args.best ≠ .nan := fun h => by rw [h] at hr; exact absurd ((divX_nan _).symm.trans hr) (by simp)
  have := share_le (by linarith) (ho.1 hb) (ho.2 hw) hr
  simp only [Fl.ofNat, Fl.fin_le_fin]
  linarith

omit [Arith] in
/-- C123 with `bilinear`, in exact arithmetic: nobody gets older than `max_lifetime`. -/
theorem C123_bilinear (fn : Fn → Fl → Fl) (opt : OptType) (strat : Strategy D) (f cr : Fl) (p : AgePar) {m : ℚ} {M : ℕ} (hm : p.minLife = .fin m) (hp : p.maxLife = Fl.ofNat M) (hmM : m ≤ M)
    (hr : ∀ v, v ≤ Fl.ofNat M → fn .round v ≤ Fl.ofNat M) {ncb : ℕ} {hist : List ((@algAging (exactArith fn) D opt B N strat f cr p (@bilinear (exactArith fn))).σ × Vec D × Fl)}
    {w : World (Vec D)} (ht : (@algAging (exactArith fn) D opt B N strat f cr p (@bilinear (exactArith fn))).Trace env ncb hist w) :
    ∀ r ∈ hist, ∀ e ∈ (show List (Ind D ℕ) from r.1), e.ext ≤ M := by
  let := exactArith fn
  refine C123_aging opt strat f cr p bilinear (fun args life ho h => ?_) ht
  obtain ⟨q, hq, rfl⟩ := round_fin h
  refine hr _ ?_
  rw [hq]
  have hmu : p.mu = .fin ((M - m) / 2) := by
    have h0 : |(M : ℚ) + -m| = M - m := by rw [← sub_eq_add_neg]; exact abs_of_nonneg (by linarith)
    rw [AgePar.mu, hm, hp]
    show Fl.divX (.fin |(M : ℚ) + -m|) (.fin (2 : ℕ)) = _
    rw [h0]
    simp [Fl.divX]
  unfold bilinear at hq
  split at hq
  · have hq : Fl.addX p.minLife (Fl.divX (Fl.mulX p.mu (Fl.addX args.f (-args.worst))) (Fl.addX args.best (-args.worst))) = .fin q := hq
    rw [hmu, hm] at hq
    obtain ⟨r, hr, rfl⟩ := addX_fin hq
    have hw : args.worst ≠ .nan := fun h => by rw [h, Fl.neg_nan, addX_nan] at hr; cases hr
    have hb : args.best ≠ .nan := fun h => by rw [h] at hr; exact absurd ((divX_nan _).symm.trans hr) (by simp)
    have := share_le (by linarith) (ho.1 hb) (ho.2 hw) hr
    simp only [Fl.ofNat, Fl.fin_le_fin]
    linarith
  · rename_i hlt
    have hq : Fl.addX (Fl.mulX (lit 1 2) (Fl.addX p.minLife p.maxLife)) (Fl.divX (Fl.mulX p.mu (Fl.addX args.f (-args.avg))) (Fl.addX args.best (-args.avg))) = .fin q := hq
    have hb : Fl.mulX (lit 1 2) (Fl.addX p.minLife p.maxLife) = .fin ((m + M) / 2) := by
      rw [hm, hp]
      show Fl.fin (((1 : ℕ) : ℚ) / (2 : ℕ) * (m + M)) = _
      congr 1
      push_cast
      ring
    rw [hb, hmu] at hq
    obtain ⟨r, hr, rfl⟩ := addX_fin hq
    have hbn : args.best ≠ .nan := fun h => by rw [h] at hr; exact absurd ((divX_nan _).symm.trans hr) (by simp)
    have hf : args.f ≠ .nan := fun e => by have := ho.1 hbn; rw [e] at this; exact absurd this (by simp)
    have ha : args.avg ≠ .nan := fun h => by rw [h, Fl.neg_nan, addX_nan] at hr; cases hr
    have hle : args.f ≤ args.avg := by
      rcases Fl.le_total hf ha with h | h
      · exact h
      · rcases Fl.lt_or_eq_of_le h with h | h
        · exact absurd h hlt
        · rw [h]; exact Fl.le_refl hf
    have := share_le (by linarith) (ho.1 hbn) hle hr
    simp only [Fl.ofNat, Fl.fin_le_fin]
    linarith

end DE

omit [Arith] in
/-- Runs with iterations. -/
example : (@ABC.alg Ex.arith 1 .minimization (Ex.box 1) 4 1 30).okIters Ex.env2 1 30 = some 2 := by decide +kernel
omit [Arith] in
example : (@FOA.alg Ex.arith 1 (Ex.box 1) 2 ⟨2, 2, 1, 1, .fin (1 / 2)⟩).okIters Ex.env2 1 30 = some 2 := by decide +kernel
omit [Arith] in
example : (@DE.algAging Ex.arith 1 .minimization (Ex.box 1) 4 (@DE.crossBest1 Ex.arith 1) (.fin (1 / 2)) (.fin (1 / 2)) ⟨.fin 1, .fin 3, .fin (1 / 2), .fin (1 / 2)⟩ (@DE.proportional Ex.arith)).okIters Ex.env2 1 30 =
    some 2 := by decide +kernel
omit [Arith] in
example : (@DE.algAging Ex.arith 1 .minimization (Ex.box 1) 4 (@DE.crossBest1 Ex.arith 1) (.fin (1 / 2)) (.fin (1 / 2)) ⟨.fin 1, .fin 3, .fin (1 / 2), .fin (1 / 2)⟩ (@DE.linear Ex.arith)).okIters Ex.env2 1 30 =
    some 2 := by decide +kernel
omit [Arith] in
example : (@DE.algAging Ex.arith 1 .minimization (Ex.box 1) 4 (@DE.crossBest1 Ex.arith 1) (.fin (1 / 2)) (.fin (1 / 2)) ⟨.fin 1, .fin 3, .fin (1 / 2), .fin (1 / 2)⟩ (@DE.bilinear Ex.arith)).okIters Ex.env2 1 30 =
    some 2 := by decide +kernel
/-- The parameters of `C103_foa_partial` with the defaults of the class (foa.py:64-65): 25 trees. -/
example : ((10 : ℕ) : ℚ) + 3 / 10 * ((1 + (1 : ℕ)) * (25 : ℕ)) ≤ (25 : ℕ) := by norm_num
omit [Arith] in
/-- The rounding of these runs respects integers. -/
example (M : ℕ) : ∀ v, v ≤ Fl.ofNat M → @Arith.fn Ex.arith .round v ≤ Fl.ofNat M := fun _ h => h

end NiaPy
