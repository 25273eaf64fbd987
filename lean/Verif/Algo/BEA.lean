import Verif.AlgTools

/-!
# Bees algorithm (`niapy/algorithms/basic/bea.py`)
-/

namespace NiaPy.BEA
open NiaPy
variable [Arith] {D N : ℕ}

/-- Parameters (bea.py:83-103). -/
structure Par where
  m : ℕ
  e : ℕ
  ngh : Fl
  nep : ℕ
  nsp : ℕ

/-- State of a run: population, fitness values, `ngh` (bea.py:143-164). -/
structure St (D N : ℕ) where
  pop : Fin N → Vec D
  fit : Fin N → Fl
  ngh : Fl

/-- Reorder by fitness (bea.py:160-162, 214-216). -/
def sorted (s : St D N) : Prog (Vec D) (St D N) := do
  let si ← sortIdx s.fit
  return { s with pop := fun i => s.pop (si i), fit := fun i => s.fit (si i) }

/-- `init_population` (bea.py:143-164). -/
def init (B : Box D) (p : Par) : Prog (Vec D) (St D N) := do
  let (pop, fit) ← defaultNumpyInit B N
  sorted ⟨pop, fit, p.ngh⟩

/-- `bee_dance` (bea.py:122-141); no generator is passed to `task.repair`. -/
def beeDance (x : Vec D) (ngh : Fl) : Prog (Vec D) (Vec D × Fl) := do
  let ind ← intFin D
  let u ← Prog.unif (-ngh) ngh
  let y ← Prog.repair (Function.update x ind (x ind + u)) false
  let v ← Prog.eval y
  return (y, v)

/-- `n` dances at site `i` (bea.py:190-199, 201-210). -/
def site (n : ℕ) (i : Fin N) (s : St D N) : Prog (Vec D) (St D N) := do
  let (bp, bc) ← forFin n (fun _ (b : Option (Vec D) × Fl) => do
    let (y, v) ← beeDance (s.pop i) s.ngh
    return if v < b.2 then (some y, v) else b) (none, .pinf)
  if bc < s.fit i then
    match bp with
    | some y => return { s with pop := Function.update s.pop i y, fit := Function.update s.fit i bc }
    | none => .throw .typeError
  else return s

/-- A random bee at site `i` (bea.py:211-213). -/
def randomBee (B : Box D) (i : Fin N) (s : St D N) : Prog (Vec D) (St D N) := do
  let y ← unifVec B.lo B.hi
  let v ← Prog.eval y
  return { s with pop := Function.update s.pop i y, fit := Function.update s.fit i v }

/-- `run_iteration` (bea.py:166-218). The incumbent handed in is ignored; the first individual is returned. -/
def iter (B : Box D) (p : Par) (s : St D N) (_xb : Vec D) (_fxb : Fl) : Prog (Vec D) (St D N × Vec D × Fl) := do
  let s ← rangeLoop N 0 p.e (site p.nep) s
  let s ← rangeLoop N p.e p.m (site p.nsp) s
  let s ← rangeLoop N p.m N (randomBee B) s
  let s ← sorted s
  let s := { s with ngh := s.ngh * lit 95 100 }
  if h : 0 < N then return (s, s.pop ⟨0, h⟩, s.fit ⟨0, h⟩) else .throw .indexError

/-- The bees algorithm with population size `N` (bea.py). -/
def alg (B : Box D) (N : ℕ) (p : Par) : Alg (Vec D) where
  σ := St D N
  init := init B p
  pop s := List.ofFn s.pop
  fit s := List.ofFn s.fit
  iter := iter B p

variable {C : Ctx (Vec D)} {g : Ghost (Vec D)}

/-- The values of the sites below `k` cover everything. -/
def Upto (C : Ctx (Vec D)) (k : ℕ) (s : St D N) (g : Ghost (Vec D)) : Prop :=
  (∀ i, C.Fit g.b (s.pop i) (s.fit i)) ∧ Cov C (fun u => ∃ j, j.1 < k ∧ u = s.fit j) g

theorem wp_site (hent : C.ent) {n m : ℕ} {i : Fin N} {s : St D N} (hi : i.1 < m) (h : Upto C m s g) :
    (site n i s).wp C (fun s' g' => Upto C m s' g' ∧ g'.c = g.c + n) g := by
  simp only [site, Prog.wp_bind']
  refine Prog.wp_mono ?_ (wp_forFin (fun k (b : Option (Vec D) × Fl) g' => (∀ i, C.Fit g'.b (s.pop i) (s.fit i)) ∧
    Cov C (fun u => (∃ j, j.1 < m ∧ u = s.fit j) ∨ u = b.2) g' ∧ (∀ y, b.1 = some y → C.Fit g'.b y b.2) ∧ b.2 ≠ .nan ∧
    g'.c = g.c + k) ⟨h.1, h.2.mono fun u hu => Or.inl hu, nofun, nofun, rfl⟩ ?_)
  · rintro ⟨bp, bc⟩ g' ⟨h1, h2, h3, hbn, h4⟩
    simp only
    rw [wp_ite]
    refine ⟨fun hlt => ?_, fun hlt => ⟨⟨h1, h2.weaken fun hn u hu hu' => ?_⟩, h4⟩⟩
    · split
      · rename_i y
        refine ⟨⟨aligned_update h1 i (h3 y rfl), h2.weaken fun hn u hu hu' => ?_⟩, h4⟩
        rcases hu with ⟨j, hj, rfl⟩ | rfl
        · by_cases hji : j = i
          · subst hji; exact ⟨bc, ⟨j, hj, by simp⟩, Fl.le_of_lt hlt⟩
          · exact ⟨s.fit j, ⟨j, hj, by simp [hji]⟩, Fl.le_refl hu'⟩
        · exact ⟨_, ⟨i, hi, by simp⟩, Fl.le_refl hu'⟩
      · exact nofun
    · rcases hu with ⟨j, hj, rfl⟩ | rfl
      · exact ⟨_, ⟨j, hj, rfl⟩, Fl.le_refl hu'⟩
      · exact ⟨_, ⟨i, hi, rfl⟩, Fl.le_of_not_lt hu' (hn _ _ (h1 i).1) hlt⟩
  · rintro k ⟨bp, bc⟩ g1 ⟨h1, h2, h3, hbn, h4⟩
    simp only [beeDance, Prog.wp_bind', wp_intFin, Prog.wp_unif, Prog.wp_repair, Prog.wp_eval]
    refine fun ind u _ => ⟨Or.inr hent, fun y hy _ => ⟨hy, fun v hv => ?_⟩⟩
    simp only [Prog.wp_pure']
    refine ⟨fit_eval h1 v, (h2.eval v).weaken fun hn u hu hu' => ?_, fun y' hy' => ?_, ?_, by simp [Ghost.eval, h4, add_assoc]⟩
    · by_cases hlt : v < bc
      · simp only [if_pos hlt]
        rcases hu with rfl | hu | rfl
        · exact ⟨_, Or.inr rfl, Fl.le_refl hu'⟩
        · exact ⟨_, Or.inl hu, Fl.le_refl hu'⟩
        · exact ⟨_, Or.inr rfl, Fl.le_of_lt hlt⟩
      · simp only [if_neg hlt]
        rcases hu with rfl | hu | rfl
        · exact ⟨_, Or.inr rfl, Fl.le_of_not_lt hu' hbn hlt⟩
        · exact ⟨_, Or.inl hu, Fl.le_refl hu'⟩
        · exact ⟨_, Or.inr rfl, Fl.le_refl hu'⟩
    · by_cases hlt : v < bc
      · simp only [if_pos hlt, Option.some.injEq] at hy' ⊢
        subst hy'; exact .new hv
      · simp only [if_neg hlt] at hy' ⊢
        exact (h3 y' hy').eval v
    · by_cases hlt : v < bc
      · simp only [if_pos hlt]; exact Fl.ne_nan_of_lt_left hlt
      · simp only [if_neg hlt]; exact hbn

/-- After sorting, the first individual covers everything. -/
theorem wp_sorted {s : St D N} (h : Upto C N s g) :
    (sorted s).wp C (fun s' g' => Upto C 1 s' g' ∧ g'.c = g.c) g := by
  simp only [sorted, Prog.wp_bind']
  refine Yields.sortIdx.wp fun si hs => ?_
  refine ⟨⟨fun i => h.1 (si i), h.2.weaken fun hn u hu hu' => ?_⟩, rfl⟩
  obtain ⟨j, hj, rfl⟩ := hu
  obtain ⟨k, rfl⟩ := hs.1.2 j
  have hN : 0 < N := by have := k.2; omega
  refine ⟨s.fit (si ⟨0, hN⟩), ⟨⟨0, hN⟩, by simp, rfl⟩, ?_⟩
  by_cases hk : k.1 = 0
  · have : k = ⟨0, hN⟩ := Fin.ext hk
    rw [← this]; exact Fl.le_refl hu'
  · rcases hs.2 ⟨0, hN⟩ k (by rw [Fin.lt_def]; simp only; omega) with h0 | h0
    · exact absurd h0 hu'
    · exact h0

/-- Obligations of the bees algorithm, for `1 <= m` and `e <= m`: `e * nep + (m - e) * nsp + (N - m)` evaluations per
iteration. The generator of the algorithm is not passed to `task.repair`. -/
theorem verified (B : Box D) (N : ℕ) (p : Par) (h1 : 1 ≤ p.m) (he : p.e ≤ p.m) (hm : p.m ≤ N) :
    Verified (alg B N p) B.Mem false true (.exact N (p.e * p.nep + (p.m - p.e) * p.nsp + (N - p.m))) := by
  refine ⟨fun C s b => (∀ i, C.Fit b (s.pop i) (s.fit i)) ∧ ∀ c ev, Cov C (fun u => ∃ j : Fin N, j.1 < 1 ∧ u = s.fit j) ⟨b, c, ev⟩,
    fun C hG hent _ => ⟨fun s b h => forall₂_ofFn h.1, fun g hg => ?_, ?_⟩⟩
  · simp only [alg, init, Prog.wp_bind']
    refine Prog.wp_mono (fun r g' h => ?_) (wp_defaultNumpyInit hG (Cov.pinf hg fun _ => False))
    refine Prog.wp_mono (fun s g'' h' => ?_) (wp_sorted (s := ⟨r.1, r.2, p.ngh⟩) (g := g') ⟨h.2.2.1, ?_⟩)
    · refine ⟨⟨h'.1.1, fun _ _ => h'.1.2⟩, h'.1.2.mono ?_, h'.2.trans h.2.2.2.2⟩
      rintro u ⟨j, -, rfl⟩; exact mem_ofFn_iff.2 ⟨j, rfl⟩
    · refine h.2.2.2.1.mono fun u hu => ?_
      obtain ⟨j, rfl⟩ := mem_ofFn_iff.1 (hu.resolve_left id)
      exact ⟨j, j.2, rfl⟩
  · intro s xb fxb g hI hF hc
    simp only [alg, iter, Prog.wp_bind']
    refine Prog.wp_mono (fun s1 g1 hs1 => ?_) (wp_rangeLoop (fun k s g' => Upto C p.m s g' ∧ g'.c = g.c + k * p.nep)
      (Nat.zero_le _) ⟨⟨hI.1, (hI.2 g.c g.ev).mono ?_⟩, by simp⟩ fun i _ hi s g' h => ?_)
    · refine Prog.wp_mono (fun s2 g2 hs2 => ?_) (wp_rangeLoop (fun k s g' => Upto C p.m s g' ∧
        g'.c = g.c + p.e * p.nep + (k - p.e) * p.nsp) he ⟨hs1.1, by simp [hs1.2]⟩ fun i hi hi' s g' h => ?_)
      · refine Prog.wp_mono (fun s3 g3 hs3 => ?_) (wp_rangeLoop (fun k s g' => Upto C k s g' ∧
          g'.c = g.c + p.e * p.nep + (p.m - p.e) * p.nsp + (k - p.m)) hm ⟨hs2.1, by simp [hs2.2]⟩ fun i hi hi' s g' h => ?_)
        · refine Prog.wp_mono (fun s4 g4 hs4 => ?_) (wp_sorted hs3.1)
          split
          · rename_i hN
            have hinc : Inc C (s4.pop ⟨0, hN⟩) (s4.fit ⟨0, hN⟩) g4 := by
              refine Inc.of_cov (hs4.1.1 _) (hs4.1.2.mono ?_)
              rintro u ⟨j, hj, rfl⟩
              have : j = ⟨0, hN⟩ := Fin.ext (by simp only; omega)
              rw [this]
            exact ⟨⟨hs4.1.1, fun _ _ => hs4.1.2⟩, hinc.fit, hinc.eq, Cost.ok_exact (by rw [hs4.2, hs3.2]; omega)⟩
          · exact nofun
        · simp only [randomBee, Prog.wp_bind']
          refine wp_unifVec_of B.le fun y hy => ?_
          rw [Prog.wp_eval]
          refine ⟨hG y hy, fun v hv => ⟨⟨aligned_update (fit_eval h.1.1 v) i (.new hv), (h.1.2.eval v).mono ?_⟩, ?_⟩⟩
          · rintro u (rfl | ⟨j, hj, rfl⟩)
            · exact ⟨i, by omega, by simp⟩
            · exact ⟨j, by omega, by simp [show j ≠ i from fun h => by subst h; omega]⟩
          · simp only [Ghost.eval, h.2]; omega
      · refine Prog.wp_mono (fun s' g'' h' => ⟨h'.1, ?_⟩) (wp_site (hent rfl) (m := p.m) hi' h.1)
        rw [h'.2, h.2, show i.1 + 1 - p.e = (i.1 - p.e) + 1 by omega, Nat.add_mul]; omega
    · rintro u ⟨j, hj, rfl⟩; exact ⟨j, by omega, rfl⟩
    · refine Prog.wp_mono (fun s' g'' h' => ⟨h'.1, ?_⟩) (wp_site (hent rfl) (m := p.m) (by omega) h.1)
      rw [h'.2, h.2, Nat.add_mul]; omega

end NiaPy.BEA
