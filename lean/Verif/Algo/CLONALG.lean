import Verif.PopTools
import Verif.Runs
import Mathlib.Algebra.BigOperators.Fin
import Mathlib.Algebra.Order.BigOperators.Group.Finset

/-!
# Clonal selection algorithm (algorithms/basic/clonalg.py)
-/

namespace NiaPy.CLONALG
variable [Arith] {D b : ℕ}

/-- Parameters (clonalg.py:60-80). -/
structure Par where
  numClones : ℕ
  mutationFactor : Fl
  numRand : ℕ

/-- One antibody: a bit string of length `b` for every coordinate. -/
abbrev Bits (D b : ℕ) := Fin D → Fin b → Bool

/-- One row of `bitstrings`, `population`, `population_fitness`. -/
structure Ab (D b : ℕ) where
  bits : Bits D b
  x : Vec D
  f : Fl

/-- `np.sum(bitstrings * 2 ** bits, axis=-1)` with `bits = b-1, ..., 0` (clonalg.py:121-122). Integers are unbounded here;
NumPy's overflow for `b ≥ 64`. -/
def zval (w : Fin b → Bool) : ℕ := ∑ k : Fin b, if w k then 2 ^ (b - 1 - k.1) else 0

/-- One coordinate of `decode` (clonalg.py:123). -/
def decode1 (lo hi : Fl) (w : Fin b → Bool) : Fl := lo + (hi - lo) * Fl.ofNat (zval w) / Fl.ofNat (2 ^ b - 1)

/-- `decode` (clonalg.py:120-123). -/
def decode (B : Box D) (w : Bits D b) : Vec D := fun j => decode1 (B.lo j) (B.hi j) (w j)

/-- `evaluate` (clonalg.py:125-128). -/
def evaluate (B : Box D) (l : List (Bits D b)) : Prog (Vec D) (List (Ab D b)) := do
  let r ← evalKeep (decode B) l
  return r.map fun e => ⟨e.1, decode B e.1, e.2⟩

/-- `mutate` (clonalg.py:130-133). -/
def mutate (w : Bits D b) (rate : Fl) : Prog (Vec D) (Bits D b) :=
  tabM D fun j => tabM b fun k => do
    let r ← Prog.rand
    return if rate < r then !w j k else w j k

/-- Sorting by fitness and keeping the first `N` (clonalg.py:145-149, 162-166). -/
def select (N : ℕ) (l : List (Ab D b)) : Prog (Vec D) (List (Ab D b)) := do
  let sorted ← sortRecs (·.f) l
  return sorted.take N

/-- `clone_and_hypermutate` (clonalg.py:135-151). -/
def cloneAndHypermutate (B : Box D) (N : ℕ) (p : Par) (s : List (Ab D b)) : Prog (Vec D) (List (Ab D b)) := do
  let clones ← mapM' (s.flatMap fun a => List.replicate p.numClones a) fun a =>
    mutate a.bits (Arith.fn .exp (-p.mutationFactor * a.f))
  let new ← evaluate B clones
  select N (s ++ new)

/-- `self.random((n, D, b)) > 0.5` -/
def randomBits (n : ℕ) : Prog (Vec D) (List (Bits D b)) := mapM' (List.range n) fun _ =>
  tabM D fun _ => tabM b fun _ => do
    let r ← Prog.rand
    return decide (lit 1 2 < r)

/-- `random_insertion` (clonalg.py:153-168). -/
def randomInsertion (B : Box D) (N : ℕ) (p : Par) (s : List (Ab D b)) : Prog (Vec D) (List (Ab D b)) :=
  if p.numRand = 0 then return s
  else do
    let bits ← randomBits p.numRand
    let new ← evaluate B bits
    select N (s ++ new)

/-- `init_population` (clonalg.py:170-189). -/
def init (B : Box D) (N : ℕ) : Prog (Vec D) (List (Ab D b)) := do
  let bits ← randomBits N
  evaluate B bits

/-- `run_iteration` (clonalg.py:191-221). -/
def iter (B : Box D) (N : ℕ) (p : Par) (s : List (Ab D b)) (xb : Vec D) (fxb : Fl) : Prog (Vec D) (List (Ab D b) × Vec D × Fl) := do
  let s ← cloneAndHypermutate B N p s
  let (xb, fxb) ← Prog.getBest (s.map (·.x)) (s.map (·.f)) xb fxb
  let s ← randomInsertion B N p s
  let best ← Prog.getBest (s.map (·.x)) (s.map (·.f)) xb fxb
  return (s, best)

/-- The clonal selection algorithm with population size `N` and `b` bits per coordinate (clonalg.py). -/
def alg (B : Box D) (b N : ℕ) (p : Par) : Alg (Vec D) where
  σ := List (Ab D b)
  init := init B N
  pop s := s.map (·.x)
  fit s := s.map (·.f)
  iter := iter B N p

/-! ### Decoding -/

omit [Arith] in
theorem sum_pow (n : ℕ) : (∑ k : Fin n, 2 ^ (n - 1 - k.1)) = 2 ^ n - 1 := by
  induction n with
  | zero => rfl
  | succ n ih =>
    rw [Fin.sum_univ_succ]
    have : ∀ k : Fin n, 2 ^ (n + 1 - 1 - (Fin.succ k).1) = 2 ^ (n - 1 - k.1) := fun k => by
      congr 1; simp; omega
    simp only [this]
    rw [ih]
    simp only [Fin.val_zero, Nat.add_sub_cancel, Nat.sub_zero, pow_succ]
    have := Nat.one_le_two_pow (n := n)
    omega

omit [Arith] in
theorem zval_le (w : Fin b → Bool) : zval w ≤ 2 ^ b - 1 := by
  rw [← sum_pow b]
  refine Finset.sum_le_sum fun k _ => ?_
  split <;> simp

omit [Arith] in
theorem zval_true : zval (fun _ : Fin b => true) = 2 ^ b - 1 := by simp only [zval, if_true]; exact sum_pow b
omit [Arith] in
theorem zval_false : zval (fun _ : Fin b => false) = 0 := by simp [zval]

/-- Decoding yields points of the box. True of exact arithmetic (`C40_decode_bounds`); with rounding the upper bound may be
missed by one unit. -/
def DecodeLaw (B : Box D) (b : ℕ) : Prop := ∀ w : Bits D b, B.Mem (decode B w)

omit [Arith] in
theorem decode1_exact (fn : Fn → Fl → Fl) (lo hi : ℚ) (hb : 0 < b) (w : Fin b → Bool) :
    @decode1 (exactArith fn) b (.fin lo) (.fin hi) w = .fin (lo + (hi - lo) * zval w / (2 ^ b - 1 : ℕ)) := by
  have h2 : 2 ≤ 2 ^ b := by simpa using Nat.pow_le_pow_right (n := 2) (by omega) hb
  have h0 : ((2 ^ b - 1 : ℕ) : ℚ) ≠ 0 := by
    have : 2 ^ b - 1 ≠ 0 := by omega
    exact_mod_cast this
  change Fl.addX (.fin lo) (Fl.divX (Fl.mulX (Fl.addX (.fin hi) (.fin (-lo))) (.fin (zval w))) (.fin (2 ^ b - 1 : ℕ))) = _
  simp only [Fl.addX, Fl.mulX, Fl.divX, if_neg h0, sub_eq_add_neg]

omit [Arith] in
/-- C40: in exact arithmetic, with finite bounds and at least one bit, a decoded coordinate lies between the bounds. -/
theorem C40_decode_bounds (fn : Fn → Fl → Fl) {lo hi : ℚ} (h : lo ≤ hi) (hb : 0 < b) (w : Fin b → Bool) :
    Fl.fin lo ≤ @decode1 (exactArith fn) b (.fin lo) (.fin hi) w ∧ @decode1 (exactArith fn) b (.fin lo) (.fin hi) w ≤ .fin hi := by
  rw [decode1_exact fn lo hi hb]
  have h2 : 2 ≤ 2 ^ b := by simpa using Nat.pow_le_pow_right (n := 2) (by omega) hb
  have h0 : (0 : ℚ) < ((2 ^ b - 1 : ℕ) : ℚ) := by
    have : 0 < 2 ^ b - 1 := by omega
    exact_mod_cast this
  have hz : (zval w : ℚ) ≤ ((2 ^ b - 1 : ℕ) : ℚ) := by exact_mod_cast zval_le w
  have hr0 : 0 ≤ (zval w : ℚ) / ((2 ^ b - 1 : ℕ) : ℚ) := by positivity
  have hr1 : (zval w : ℚ) / ((2 ^ b - 1 : ℕ) : ℚ) ≤ 1 := (div_le_one h0).2 hz
  have := affine_exact h hr0 hr1
  rw [mul_comm _ (hi - lo), ← mul_div_assoc] at this
  simpa only [Fl.fin_le_fin] using this

omit [Arith] in
/-- C40: all bits 0 decodes to the lower bound, all bits 1 to the upper bound. -/
theorem C40_decode_ends (fn : Fn → Fl → Fl) (lo hi : ℚ) (hb : 0 < b) :
    @decode1 (exactArith fn) b (.fin lo) (.fin hi) (fun _ => false) = .fin lo ∧
    @decode1 (exactArith fn) b (.fin lo) (.fin hi) (fun _ => true) = .fin hi := by
  have h2 : 2 ≤ 2 ^ b := by simpa using Nat.pow_le_pow_right (n := 2) (by omega) hb
  have h0 : ((2 ^ b - 1 : ℕ) : ℚ) ≠ 0 := by
    have : 2 ^ b - 1 ≠ 0 := by omega
    exact_mod_cast this
  rw [decode1_exact fn lo hi hb, decode1_exact fn lo hi hb, zval_false, zval_true]
  constructor
  · simp
  · rw [mul_div_assoc, div_self h0]; simp

omit [Arith] in
/-- C40: decoding is monotone in the number the bits stand for, and bit strings with larger numbers give larger
coordinates (for `lower < upper` strictly). -/
theorem C40_decode_mono (fn : Fn → Fl → Fl) {lo hi : ℚ} (h : lo < hi) (hb : 0 < b) (w w' : Fin b → Bool) :
    @decode1 (exactArith fn) b (.fin lo) (.fin hi) w ≤ @decode1 (exactArith fn) b (.fin lo) (.fin hi) w' ↔ zval w ≤ zval w' := by
  have h2 : 2 ≤ 2 ^ b := by simpa using Nat.pow_le_pow_right (n := 2) (by omega) hb
  have h0 : (0 : ℚ) < ((2 ^ b - 1 : ℕ) : ℚ) := by
    have : 0 < 2 ^ b - 1 := by omega
    exact_mod_cast this
  rw [decode1_exact fn lo hi hb, decode1_exact fn lo hi hb, Fl.fin_le_fin, add_le_add_iff_left, div_le_div_iff_of_pos_right h0,
    mul_le_mul_iff_right₀ (by linarith), Nat.cast_le]

/-- With 3 bits on `[-2, 5]`, 101 decodes to 3. -/
example : @decode1 (exactArith fun _ x => x) 3 (.fin (-2)) (.fin 5) ![true, false, true] = .fin 3 := by decide +kernel

omit [Arith] in
theorem decodeLaw_exact (fn : Fn → Fl → Fl) (B : Box D) (hb : 0 < b) (hlo : ∀ i, ∃ q, B.lo i = .fin q) (hhi : ∀ i, ∃ q, B.hi i = .fin q) :
    @DecodeLaw (exactArith fn) D B b := by
  intro w i
  obtain ⟨l, hl⟩ := hlo i
  obtain ⟨u, hu⟩ := hhi i
  have hle := B.le i
  unfold decode
  rw [hl, hu] at hle ⊢
  exact C40_decode_bounds fn ((Fl.fin_le_fin _ _).1 hle) hb (w i)

/-! ### The algorithm -/

variable {C : Ctx (Vec D)} {g : Ghost (Vec D)}

theorem wp_evaluate {B : Box D} (hd : ∀ w : Bits D b, C.G (decode B w)) {l : List (Bits D b)} {S : Fl → Prop} (h0 : Cov C S g)
    {Q : List (Ab D b) → Ghost (Vec D) → Prop}
    (hQ : ∀ r g', 0 < l.length → Below g'.b g.b → (∀ e ∈ r, C.Fit g'.b e.x e.f) → Cov C (fun u => S u ∨ ∃ e ∈ r, u = e.f) g' →
      r.length = l.length → g'.c = g.c + l.length → Q r g') : (evaluate B l).wp C Q g := by
  simp only [evaluate, Prog.wp_bind']
  refine wp_evalKeep (fun w _ => hd w) h0 fun r g' h1 h2 h3 h4 h5 h6 => hQ _ _ h1 h2 ?_ ?_ ?_ h6
  · intro e he
    obtain ⟨e', he', rfl⟩ := List.mem_map.1 he
    exact h3 e' he'
  · refine h4.mono ?_
    rintro u (h | ⟨e, he, rfl⟩)
    · exact Or.inl h
    · exact Or.inr ⟨_, List.mem_map_of_mem he, rfl⟩
  · rw [← h5]; simp

theorem wp_select {N : ℕ} (hN : 0 < N) {l : List (Ab D b)} (hf : ∀ e ∈ l, C.Fit g.b e.x e.f) {S : Fl → Prop}
    (hc : Cov C (fun u => S u ∨ ∃ e ∈ l, u = e.f) g) {Q : List (Ab D b) → Ghost (Vec D) → Prop}
    (hQ : ∀ r, (∀ e ∈ r, C.Fit g.b e.x e.f) → Cov C (fun u => S u ∨ ∃ e ∈ r, u = e.f) g → r.length = min N l.length → Q r g) :
    (select N l).wp C Q g := by
  simp only [select, Prog.wp_bind']
  refine Yields.sortRecs.wp fun r hr => hQ _ ?_ ?_ ?_
  · exact fun e he => hf e (hr.1.mem_iff.1 (List.mem_of_mem_take he))
  · exact hc.sorted hr.1 hr.2 (fun hn e he => hn _ _ (hf e he).1) hN
  · rw [List.length_take, hr.1.length_eq]

theorem randomBits_len (n : ℕ) : Yields C (randomBits n : Prog (Vec D) (List (Bits D b))) fun r => r.length = n := by
  refine (Yields.mapMAll (P := fun _ => True) fun _ _ => ?_).mono fun r hr => by simpa using hr.2
  yields

theorem mutate_quiet (w : Bits D b) (r : Fl) : Quiet C (mutate w r) := by
  unfold mutate
  yields

theorem wp_union {l new : List (Ab D b)} {N : ℕ} (hN : 0 < N) {g : Ghost (Vec D)} (hl : ∀ e ∈ l, C.Fit g.b e.x e.f) (hn : ∀ e ∈ new, C.Fit g.b e.x e.f)
    {S : Fl → Prop} (hc : Cov C (fun u => S u ∨ ∃ e ∈ new, u = e.f) g) {Q : List (Ab D b) → Ghost (Vec D) → Prop}
    (hQ : ∀ r, (∀ e ∈ r, C.Fit g.b e.x e.f) → Cov C (fun u => S u ∨ ∃ e ∈ r, u = e.f) g → r.length = min N (l.length + new.length) → Q r g) :
    (select N (l ++ new)).wp C Q g := by
  refine wp_select hN ?_ (S := S) ?_ fun r h1 h2 h3 => hQ r h1 h2 (by simpa using h3)
  · intro e he
    rcases List.mem_append.1 he with he | he
    · exact hl e he
    · exact hn e he
  · refine hc.mono ?_
    rintro u (h | ⟨e, he, rfl⟩)
    · exact Or.inl h
    · exact Or.inr ⟨e, by simp [he], rfl⟩

theorem wp_iter (B : Box D) (hd : ∀ w : Bits D b, C.G (decode B w)) (N : ℕ) (p : Par) (s : List (Ab D b)) (xb : Vec D) (fxb : Fl)
    (hs : ∀ e ∈ s, C.Fit g.b e.x e.f) (hlen : s.length = N) (hinc : Inc C xb fxb g) :
    (iter B N p s xb fxb).wp C (fun r g' => (∀ e ∈ r.1, C.Fit g'.b e.x e.f) ∧ r.1.length = N ∧ Inc C r.2.1 r.2.2 g' ∧
      g'.c = g.c + (N * p.numClones + p.numRand)) g := by
  simp only [iter, cloneAndHypermutate, Prog.wp_bind']
  refine Yields.wp (Yields.mapMAll (P := fun _ => True) fun a _ => mutate_quiet ..) fun clones hcl => ?_
  have hcl2 : clones.length = N * p.numClones := by
    rw [hcl.2, List.length_flatMap]
    simp [hlen]
  refine wp_evaluate hd hinc.cov fun new g1 hpos hb1 hf1 hc1 hl1 hn1 => ?_
  have hN : 0 < N := Nat.pos_of_ne_zero fun h => by rw [hcl2, h] at hpos; simp at hpos
  refine wp_union hN (fun e he => (hs e he).mono hb1) hf1 hc1 fun s1 h1 h2 h3 => ?_
  have hl2 : s1.length = N := by rw [h3]; omega
  refine wp_getBest_recs h1 (hinc.toFit.mono hb1) h2 fun best hi => ?_
  unfold randomInsertion
  split
  · rename_i h0
    refine wp_getBest_recs h1 hi.toFit (hi.cov.mono fun u hu => Or.inl hu) fun best' hi' => ?_
    exact ⟨h1, hl2, hi', by omega⟩
  · simp only [Prog.wp_bind']
    refine (randomBits_len p.numRand).wp fun bits hbits => ?_
    refine wp_evaluate hd hi.cov fun new2 g2 hpos hb2 hf2 hc2 hl2' hn2 => ?_
    refine wp_union hN (fun e he => (h1 e he).mono hb2) hf2 hc2 fun s2 k1 k2 k3 => ?_
    refine wp_getBest_recs k1 (hi.toFit.mono hb2) k2 fun best' hi' => ?_
    exact ⟨k1, by rw [k3]; omega, hi', by omega⟩

/-- The obligations of the clonal selection algorithm: decoded points are not repaired. -/
theorem verified (B : Box D) (b N : ℕ) (p : Par) :
    Verified (alg B b N p) (fun x => ∃ w, x = decode B (b := b) w) true true (.exact N (N * p.numClones + p.numRand)) := by
  refine ⟨fun C (s : List (Ab D b)) v => (∀ e ∈ s, C.Fit v e.x e.f) ∧ s.length = N, fun C hG _ _ => ⟨fun s v h => forall₂_map h.1, fun g hg => ?_, ?_⟩⟩
  · simp only [alg, init, Prog.wp_bind']
    refine (randomBits_len N).wp fun bits hbits => ?_
    refine wp_evaluate (fun w => hG _ ⟨w, rfl⟩) (Cov.pinf hg fun _ => False) fun r g' h1 h2 h3 h4 h5 h6 => ?_
    refine ⟨⟨h3, by omega⟩, h4.mono ?_, by omega⟩
    rintro u (h | ⟨e, he, rfl⟩)
    · exact h.elim
    · exact List.mem_map_of_mem he
  · intro s xb fxb g hI hF hc
    exact Prog.wp_mono (fun a g' h => ⟨⟨h.1, h.2.1⟩, h.2.2.1.fit, h.2.2.1.eq, Cost.ok_exact h.2.2.2⟩)
      (wp_iter B (fun w => hG _ ⟨w, rfl⟩) N p s xb fxb hI.1 hI.2 ⟨hF, hc⟩)

/-- Two iterations of a concrete run. -/
example : (@alg Ex.arith 2 (Ex.box 2) 3 3 ⟨1, .fin 2, 1⟩).okIters Ex.env2 1 5 = some 2 := by decide +kernel

end NiaPy.CLONALG
