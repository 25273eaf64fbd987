import Verif.Elite

/-!
# Truncation selection keeps exactly the best (C118)
-/

namespace NiaPy
variable [Arith] {D N : ℕ} {env : Env (Vec D)} {B : Box D}

/-- `new` is the `n` best values of `pool` in ascending order (NaN last): what is left over is not better than what was taken. -/
structure Truncated (n : ℕ) (pool new : List Fl) : Prop where
  sorted : new.Pairwise leNanLast
  length : new.length = min n pool.length
  best : ∃ rest, (new ++ rest).Perm pool ∧ ∀ a ∈ new, ∀ b ∈ rest, leNanLast a b

omit [Arith] in
theorem Truncated.take {α : Type} {val : α → Fl} {l r : List α} (hp : r.Perm l) (hs : r.Pairwise fun a b => leNanLast (val a) (val b)) (n : ℕ) :
    Truncated n (l.map val) ((r.take n).map val) where
  sorted := List.pairwise_map.2 (hs.sublist (List.take_sublist _ _))
  length := by simp [hp.length_eq]
  best := by
    refine ⟨(r.drop n).map val, ?_, ?_⟩
    · rw [← List.map_append, List.take_append_drop]
      exact hp.map val
    · intro a ha b hb
      obtain ⟨a', ha', rfl⟩ := List.mem_map.1 ha
      obtain ⟨b', hb', rfl⟩ := List.mem_map.1 hb
      rw [← List.take_append_drop n r, List.pairwise_append] at hs
      exact hs.2.2 a' ha' b' hb'

namespace ES

theorem offspring_post (lam mu : ℕ) (l : List (Ind D)) (b : Bool) : Post env (mapM' (List.range lam) fun _ => do
      let y ← mutateRand mu l
      newInd y b) fun cn => cn.length = lam ∧ ∀ e ∈ cn, Possible env e.x e.f := by
  refine (FOA.mapM_post (P := fun _ (e : Ind D) => Possible env e.x e.f) fun _ => .bind' .any fun y _ => .bind' .any fun x _ =>
    .bind' (.eval fun v hv => hv) fun v hv => .pure' hv).mono fun r hr => ⟨?_, fun e he => ?_⟩
  · rw [← hr.length_eq, List.length_range]
  · obtain ⟨_, _, h⟩ := FOA.forall₂_right hr he
    exact h

/-- C118 for the (mu+lambda) strategy: the new population are the `mu` best of the old one and `lam` evaluated offspring, in ascending order. -/
theorem C118_plus (p : Par) (lam : ℕ) (s : StL D) (xb : Vec D) (fxb : Fl) : Post env (iterL p lam s xb fxb) fun r =>
    ∃ off : List (Ind D), off.length = lam ∧ (∀ e ∈ off, Possible env e.x e.f) ∧
      Truncated p.mu (off.map (·.f) ++ s.pop.map (·.f)) (r.1.pop.map (·.f)) := by
  have had : ∀ v, (adaptL p v s).pop.map (·.f) = s.pop.map (·.f) := fun v => by
    unfold adaptL
    split
    · simp only [updateRhos]
      split
      · simp
      · split <;> simp
    · rfl
  refine .bind' .any fun v _ => LOA.Post.ite (fun _ => LOA.Post.throw) fun _ => .bind' (offspring_post _ _ _ _) fun cn hcn =>
    .bind' (.yields Yields.sortRecs) fun l hl => .bind' .any fun b _ => .pure' ⟨cn, hcn.1, hcn.2, ?_⟩
  have := Truncated.take hl.1 hl.2 p.mu
  rw [← had v.iters]
  simpa [Function.comp_def] using this

/-- C118 for the (mu,lambda) strategy with fewer survivors than offspring: the `mu` best of the `lam` offspring. -/
theorem C118_comma {mu lam : ℕ} (h : mu < lam) (l : List (Ind D)) (xb : Vec D) (fxb : Fl) : Post env (iterM mu lam l xb fxb) fun r =>
    ∃ off : List (Ind D), off.length = lam ∧ (∀ e ∈ off, Possible env e.x e.f) ∧ Truncated mu (off.map (·.f)) (r.1.map (·.f)) := by
  refine .bind' (offspring_post _ _ _ _) fun cn hcn => .bind' (P := fun r => Truncated mu (cn.map (·.f)) (r.map (·.f))) ?_ fun r hr =>
    .bind' .any fun _ _ => .pure' ⟨cn, hcn.1, hcn.2, hr⟩
  refine .bind' (.yields Yields.sortRecs) fun r hr => ?_
  rw [if_pos h]
  exact .pure' (Truncated.take hr.1 hr.2 mu)

/-- C118 for the (mu,lambda) strategy otherwise: all offspring survive and nobody else is there. -/
theorem C118_comma_all {mu lam : ℕ} (h : lam ≤ mu) (l : List (Ind D)) (xb : Vec D) (fxb : Fl) : Post env (iterM mu lam l xb fxb) fun r =>
    ∃ off : List (Ind D), off.length = lam ∧ (∀ e ∈ off, Possible env e.x e.f) ∧ ∀ e, e ∈ r.1 ↔ e ∈ off := by
  refine .bind' (offspring_post _ _ _ _) fun cn hcn => .bind' (P := fun r => ∀ e, e ∈ r ↔ e ∈ cn) ?_ fun r hr =>
    .bind' .any fun _ _ => .pure' ⟨cn, hcn.1, hcn.2, hr⟩
  refine .bind' .any fun r _ => ?_
  rw [if_neg (by omega)]
  refine LOA.Post.ite (fun _ => LOA.Post.throw) fun h0 => .pure' fun e => ?_
  simp only [List.mem_flatMap, List.mem_range]
  refine ⟨fun ⟨_, _, he⟩ => List.mem_of_mem_take he, fun he => ⟨0, ?_, ?_⟩⟩
  · exact Nat.div_pos (by omega) (by omega)
  · simp only [Nat.zero_mul, Nat.sub_zero, if_pos h]
    rwa [List.take_of_length_le (by omega)]

end ES

namespace CLONALG
variable {b : ℕ}

theorem evaluate_post (l : List (Bits D b)) : Post env (evaluate B l) fun r => r.length = l.length ∧ ∀ a ∈ r, Possible env a.x a.f := by
  refine .bind' (P := fun r => r.length = l.length ∧ ∀ e ∈ r, Possible env (decode B e.1) e.2) ?_ fun r hr => .pure' ⟨by simp [hr.1], fun a ha => ?_⟩
  · refine LOA.Post.ite (fun _ => LOA.Post.throw) fun _ => (FOA.mapM_post (P := fun _ (e : Bits D b × Fl) => Possible env (decode B e.1) e.2) fun x =>
      .bind' (.eval fun v hv => hv) fun v hv => .pure' hv).mono fun r hr => ⟨hr.length_eq.symm, fun e he => ?_⟩
    obtain ⟨_, _, h⟩ := FOA.forall₂_right hr he
    exact h
  · obtain ⟨e, he, rfl⟩ := List.mem_map.1 ha
    exact hr.2 e he

omit [Arith] in
theorem select_post (l : List (Ab D b)) : Post env (select N l) fun r => Truncated N (l.map (·.f)) (r.map (·.f)) :=
  .bind' (.yields Yields.sortRecs) fun _ hr => .pure' (Truncated.take hr.1 hr.2 N)

theorem clones_length {α β : Type} {l : List β} {f : β → Prog (Vec D) α} : Post env (mapM' l f) fun r => r.length = l.length :=
  (FOA.mapM_post (P := fun _ _ => True) fun _ => .any).mono fun _ hr => hr.length_eq.symm

/-- C118 for clonal selection: each antibody gets `num_clones` clones, the `N` best of antibodies and clones stay; then `num_rand` random
antibodies are added and again the `N` best stay. -/
theorem C118_clones (p : Par) (s : List (Ab D b)) (xb : Vec D) (fxb : Fl) : Post env (iter B N p s xb fxb) fun r =>
    ∃ clones mid random : List (Ab D b), clones.length = p.numClones * s.length ∧ random.length = p.numRand ∧
      (∀ a ∈ clones ++ random, Possible env a.x a.f) ∧
      Truncated N (s.map (·.f) ++ clones.map (·.f)) (mid.map (·.f)) ∧
      (p.numRand = 0 ∧ r.1 = mid ∨ Truncated N (mid.map (·.f) ++ random.map (·.f)) (List.map (fun a : Ab D b => a.f) r.1)) := by
  refine .bind' (P := fun mid => ∃ clones : List (Ab D b), clones.length = p.numClones * s.length ∧ (∀ a ∈ clones, Possible env a.x a.f) ∧
      Truncated N (s.map (·.f) ++ clones.map (·.f)) (mid.map (·.f))) ?_ fun mid ⟨clones, h1, h2, h3⟩ => .bind' .any fun _ _ =>
    .bind' (P := fun r => ∃ random : List (Ab D b), random.length = p.numRand ∧ (∀ a ∈ random, Possible env a.x a.f) ∧
      (p.numRand = 0 ∧ r = mid ∨ Truncated N (mid.map (·.f) ++ random.map (·.f)) (r.map (·.f)))) ?_ fun r ⟨random, h4, h5, h6⟩ =>
    .bind' .any fun _ _ => .pure' ⟨clones, mid, random, h1, h4, ?_, h3, h6⟩
  · refine .bind' clones_length fun c hc => .bind' (evaluate_post c) fun new hn => (select_post _).mono fun r hr => ⟨new, ?_, hn.2, by simpa using hr⟩
    rw [hn.1, hc]
    simp [List.length_flatMap, mul_comm]
  · refine LOA.Post.ite (fun h0 => .pure' ⟨[], by simp [h0], by simp, .inl ⟨h0, rfl⟩⟩) fun _ => .bind' clones_length fun c hc => .bind' (evaluate_post c) fun new hn =>
      (select_post _).mono fun r hr => ⟨new, by rw [hn.1, hc, List.length_range], hn.2, .inr (by simpa using hr)⟩
  · intro a ha
    rcases List.mem_append.1 ha with h | h
    · exact h2 a h
    · exact h5 a h

end CLONALG

namespace BEA

/-- C118 for the bees algorithm: the population is always in ascending order, and from the first iteration on the first bee is what is
reported as best. -/
theorem C118_sorted (p : Par) {ncb : ℕ} {hist : List ((alg B N p).σ × Vec D × Fl)} {w : World (Vec D)} (ht : (alg B N p).Trace env ncb hist w) :
    (∀ r ∈ hist, (List.ofFn (St.fit (D := D) (N := N) r.1)).Pairwise leNanLast) ∧
    hist.IsChain fun r' _ => ∃ h : 0 < N, r'.2.1 = St.pop (D := D) (N := N) r'.1 ⟨0, h⟩ ∧ r'.2.2 = St.fit (D := D) (N := N) r'.1 ⟨0, h⟩ := by
  have hs : ∀ s : St D N, Post env (sorted s) fun s' => (List.ofFn s'.fit).Pairwise leNanLast ∧ s'.ngh = s.ngh := fun s =>
    .bind' (.yields Yields.sortIdx) fun si hsi => .pure' ⟨List.pairwise_ofFn.2 fun i j hij => hsi.2 i j hij, rfl⟩
  refine ht.post (P := fun r => (List.ofFn (St.fit (D := D) (N := N) r.1)).Pairwise leNanLast)
    (R := fun r' _ => ∃ h : 0 < N, r'.2.1 = St.pop (D := D) (N := N) r'.1 ⟨0, h⟩ ∧ r'.2.2 = St.fit (D := D) (N := N) r'.1 ⟨0, h⟩) (fun s b h _ => ?_) fun r _ => ?_
  · obtain ⟨w, w', h⟩ := h
    have : Post env (init B (N := N) p) fun s => (List.ofFn s.fit).Pairwise leNanLast := .bind' .any fun _ _ => (hs _).mono fun _ h => h.1
    exact this _ _ _ h
  · refine .bind' .any fun _ _ => .bind' .any fun _ _ => .bind' .any fun _ _ => .bind' (hs _) fun s' hs' => ?_
    by_cases h : 0 < N
    · rw [dif_pos h]
      exact .pure' ⟨hs'.1, h, rfl, rfl⟩
    · rw [dif_neg h]
      exact LOA.Post.throw

theorem site_ngh (n : ℕ) (i : Fin N) (s : St D N) : Post env (site n i s) fun s' => s'.ngh = s.ngh := by
  refine .bind' .any fun b _ => LOA.Post.ite (fun _ => ?_) fun _ => .pure' rfl
  split
  · exact .pure' rfl
  · exact LOA.Post.throw

/-- C118 for the bees algorithm: in exact arithmetic the patch size after `n` iterations is `ngh * 0.95 ^ n`. -/
theorem C118_patch [ExactOps] (p : Par) {q : ℚ} (hq : p.ngh = .fin q) {ncb : ℕ} {hist : List ((alg B N p).σ × Vec D × Fl)} {w : World (Vec D)}
    (ht : (alg B N p).Trace env ncb hist w) {pre rest : List ((alg B N p).σ × Vec D × Fl)} {r : (alg B N p).σ × Vec D × Fl} (he : hist = pre ++ r :: rest) :
    St.ngh (D := D) (N := N) r.1 = .fin (q * (95 / 100) ^ rest.length) := by
  have hs : ∀ s : St D N, Post env (sorted s) fun s' => s'.ngh = s.ngh := fun s => .bind' .any fun si _ => .pure' rfl
  refine ht.after (P := fun n s => St.ngh (D := D) (N := N) s = .fin (q * (95 / 100) ^ n)) (.bind' .any fun _ _ => (hs _).mono fun s h => ?_) (fun n s xb fxb hn => ?_) he
  · rw [h]
    simpa using hq
  · refine .bind' (rangeLoop_post (fun s' : St D N => s'.ngh = St.ngh (D := D) (N := N) s) rfl fun i _ s' h => (site_ngh _ i s').mono fun _ h' => h'.trans h) fun s1 h1 => ?_
    refine .bind' (rangeLoop_post (fun s' : St D N => s'.ngh = St.ngh (D := D) (N := N) s) h1 fun i _ s' h => (site_ngh _ i s').mono fun _ h' => h'.trans h) fun s2 h2 => ?_
    refine .bind' (rangeLoop_post (fun s' : St D N => s'.ngh = St.ngh (D := D) (N := N) s) h2 fun i _ s' h => .bind' .any fun _ _ => .bind' .any fun _ _ => .pure' h) fun s3 h3 => ?_
    refine .bind' (hs s3) fun s4 h4 => ?_
    by_cases h : 0 < N
    · rw [dif_pos h]
      refine .pure' ?_
      show s4.ngh * lit 95 100 = _
      rw [h4, h3, hn, show (lit 95 100 : Fl) = .fin (95 / 100) from by norm_num [lit], ExactOps.mul_fin, pow_succ, mul_assoc]
    · rw [dif_neg h]
      exact LOA.Post.throw

end BEA

/-! ### Concrete cases -/

/-- Three offspring, two survivors. -/
example : Truncated 2 [.fin 3, .nan, .fin 1] [.fin 1, .fin 3] :=
  ⟨by decide +kernel, rfl, [.nan], by decide +kernel, by decide +kernel⟩

/-- A survivor that is worse than someone who was left out is not allowed. -/
example : ¬ Truncated 1 [.fin 3, .fin 1] [.fin 3] := fun ⟨_, _, rest, hp, h⟩ => by
  have h1 : rest.Perm [.fin 1] := (List.perm_cons _).1 hp
  rw [List.perm_singleton] at h1
  subst h1
  exact absurd (h (.fin 3) (by simp) (.fin 1) (by simp)) (by decide +kernel)

end NiaPy
