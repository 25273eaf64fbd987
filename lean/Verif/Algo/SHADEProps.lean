import Verif.Algo.SHADE
import Verif.Post
import Mathlib.Tactic.FieldSimp

/-!
# C35 and C36 for SHADE, L-SHADE and ILSHADE
-/

namespace NiaPy.SHADE
open NiaPy DE
open NiaPy.JDE (SA)
variable [Arith] {D : ℕ} {opt : OptType} {B : Box D} {p : Par} {env : Env (Vec D)} {ncb : ℕ} {hist : List (St D × Vec D × Fl)}
  {w : World (Vec D)}

/-! ### C35 -/

/-- What an iteration does to population and archive, in terms of the selected individuals. -/
theorem iter_any (s : St D) (xb : Vec D) (fxb : Fl) (g : Ghost (Vec D)) {Q : St D × Vec D × Fl → Prop}
    (hQ : ∀ (l : List (Ind D SA)) (new : Fin l.length → Ind D SA) (size : ℤ) (a : List (Vec D) × ℕ) (s' : St D) r, l.Perm s.pop →
      capacity p l.length = .ok size → (a.1.length = s.arc.length ∧ s.cnt ≤ a.2 ∧ (a.2 = s.cnt ∨ (a.2 : ℤ) ≤ size ∧ a.2 ≤ s.arc.length)) →
      Reduced p (learn p (successes l new) { s with pop := survivors l new, arc := a.1, cnt := a.2 }) s' →
      (p.lpsr = false → s'.pop = survivors l new) → Q (s', r)) :
    (iter B p s xb fxb).wp Ctx.any (fun r _ => Q r) g := by
  simp only [iter, Prog.wp_bind']
  refine Yields.sortRecs.wp fun l hs => ?_
  refine Prog.wp_any _ (fun new g => ?_) _
  refine (ofExcept_yields (P := fun size => capacity p l.length = .ok size) (fun _ h => h) (capacity_no_oof _ _)).wp fun size hsize => ?_
  refine (archive_quiet size l new (s.arc, s.cnt)
    (fun a => a.1.length = s.arc.length ∧ s.cnt ≤ a.2 ∧ (a.2 = s.cnt ∨ (a.2 : ℤ) ≤ size ∧ a.2 ≤ s.arc.length)) ⟨rfl, le_rfl, Or.inl rfl⟩
    fun x a ha => (store_yields size x a).mono fun a' ha' => ?_).wp fun a ha => ?_
  · refine ⟨ha'.1.trans ha.1, ?_, ?_⟩
    · rcases ha'.2 with h | ⟨h, -⟩ <;> omega
    · rcases ha'.2 with h | ⟨h, h1, h2⟩
      · rw [h]; exact ha.2.2
      · right; rw [ha.1] at h2; omega
  · refine Prog.wp_any _ (fun r g => (post_yields p _).wp fun s' hs' => Prog.wp_any _ (fun r g => ?_) _) _
    exact hQ l new size a s' r hs.1 hsize ha hs'.1 fun hp => by rw [hs'.2 hp, learn_pop]

theorem init_any (g : Ghost (Vec D)) : (init opt B p).wp Ctx.any (fun s _ => s.pop.length = p.N ∧ (∀ e ∈ s.pop, e.ext = p.default) ∧
    s.cnt = 0 ∧ capacity p p.N = .ok s.arc.length) g := by
  simp only [init, Prog.wp_bind']
  have h1 : (DE.init opt B p.N p.default).wp Ctx.any (fun l _ => l.length = p.N ∧ ∀ e ∈ l, e.ext = p.default) g := by
    simp only [DE.init, Prog.wp_bind']
    refine Prog.wp_mono (fun r g' h => ?_) (wp_tabM (fun _ _ => True) (fun _ a => a.ext = p.default) trivial fun i g _ =>
      wp_randInd fun y v _ _ => ⟨trivial, rfl⟩)
    refine ⟨by simp, fun i hi => ?_⟩
    obtain ⟨j, rfl⟩ := List.mem_ofFn.1 hi
    exact h.2 j
  refine Prog.wp_mono (fun l g' hl => ?_) h1
  refine (ofExcept_yields (P := fun a : List (Vec D) => capacity p p.N = .ok a.length) (fun a ha => ?_) (initArc_no_oof p)).wp
    fun arc ha => ⟨hl.1, hl.2, rfl, ha⟩
  unfold initArc at ha
  cases hr : capacity p p.N with
  | error e => rw [hr] at ha; cases ha
  | ok n =>
    rw [hr] at ha
    simp only [bind, Except.bind] at ha
    split at ha
    · cases ha
    · cases ha; simp; omega

/-- C35: at the head of every iteration, the population is not larger than at the head of the previous one; its size is
between the initial size and the minimum of 4 (or the initial size, if that is smaller). Without reduction (SHADE) it does not
change. -/
theorem C35_size (h : (alg opt B p).Trace env ncb hist w) :
    hist.IsChain (fun r' r => r'.1.pop.length ≤ r.1.pop.length) ∧
    ∀ r ∈ hist, r.1.pop.length ≤ p.N ∧ min p.N 4 ≤ r.1.pop.length ∧ (p.lpsr = false → r.1.pop.length = p.N) := by
  constructor
  · refine h.chain (R := fun (r' r : St D × Vec D × Fl) => r'.1.pop.length ≤ r.1.pop.length) fun r g => ?_
    refine iter_any r.1 r.2.1 r.2.2 g fun l new size a s' b hl _ _ hred _ => ?_
    have := hred.sub.length_le
    rw [learn_pop] at this
    simpa [survivors, hl.length_eq] using this
  · refine h.states (P := fun s : St D => s.pop.length ≤ p.N ∧ min p.N 4 ≤ s.pop.length ∧ (p.lpsr = false → s.pop.length = p.N))
      (fun g => Prog.wp_mono (fun s _ hs => ⟨by omega, by omega, fun _ => hs.1⟩) (init_any g)) fun r g hr => ?_
    have hr : r.1.pop.length ≤ p.N ∧ min p.N 4 ≤ r.1.pop.length ∧ (p.lpsr = false → r.1.pop.length = p.N) := hr
    refine iter_any r.1 r.2.1 r.2.2 g fun l new size a s' b hl _ _ hred hn => ?_
    have h1 := hred.sub.length_le
    have h2 := hred.length
    rw [learn_pop] at h1 h2
    simp only [survivors, List.length_ofFn, hl.length_eq] at h1 h2
    refine ⟨?_, ?_, fun hp => ?_⟩
    · show s'.pop.length ≤ _; omega
    · show _ ≤ s'.pop.length; omega
    · show s'.pop.length = _
      rw [hn hp, survivors, List.length_ofFn, hl.length_eq]; exact hr.2.2 hp

omit [Arith] in
theorem possible_ne_nan (hnn : NoNaN env) : ∀ x v, Possible env x v → v ≠ .nan := by
  rintro x v (rfl | ⟨k, r, hr, rfl⟩)
  · simp
  · have := hnn k x r hr
    cases env.opt <;> cases r <;> simp_all [OptType.mul, Fl.neg]

/-- C35: the reduction never removes the best individual: at the head of every iteration the population contains an
individual with the best fitness found so far. -/
theorem C35_best (hnn : NoNaN env) (h : (alg opt B p).Trace env ncb hist w) : ∀ r ∈ hist, ∃ e ∈ r.1.pop, e.f = r.2.2 := by
  have hNN : (env.ctx True).NN := ⟨trivial, fun x v h => possible_ne_nan hnn x v (h.sharp trivial).2⟩
  have key := Alg.Trace.inv (A := alg opt B p) (C := env.ctx True) (.of (fun _ _ _ => trivial) fun _ _ _ => by first | trivial | assumption) trivial
    (fun (hist : List (St D × Vec D × Fl)) b => (∀ r ∈ hist.head?, PopOK (env.ctx True) r.1.pop b ∧ (env.ctx True).F r.2.1 r.2.2 ∧ r.2.2 = b) ∧
      ∀ r ∈ hist, ∃ e ∈ r.1.pop, e.f = r.2.2) ?_ ?_ h (fun x v hf => .of trivial (h.calls.possible hf))
  · exact key.2
  · intro g hg
    refine wp_init (C := env.ctx True) hg fun s g' h1 _ h3 _ r hr => ?_
    have hr : getBest (s.pop.map (·.x)) (s.pop.map (·.f)) none .pinf = .ok r := hr
    have hal : List.Forall₂ ((env.ctx True).Fit g'.b) (s.pop.map (·.x)) (s.pop.map (·.f)) := forall₂_map h1
    have hfit : (env.ctx True).Fit g'.b r.1 r.2 := getBest_aligned hal (fun x hx => by cases hx) hr
    have hle := (getBest_le (Forall₂.nn hNN (hal.imp fun _ _ h => h.1)) (by simp) hr).1
    have hmem : ∃ e ∈ s.pop, e.f = r.2 := by
      unfold getBest at hr
      split at hr
      · cases hr
      split at hr
      · cases hr
      rename_i ib _ _ f hf
      split at hr
      · split at hr
        · cases hr
        · cases hr
          obtain ⟨e, he, hef⟩ := List.mem_map.1 (List.mem_of_getElem? hf)
          exact ⟨e, he, hef⟩
      · cases hr
    have hbn : r.2 ≠ .nan := hNN _ _ hfit.1
    have hb : r.2 = g'.b := by
      have hgb : g'.b ≠ .nan := by
        rcases h3 hNN with h0 | ⟨u, hu, hle'⟩
        · rw [h0]; simp
        · intro h; rw [h] at hle'; simp at hle'
      refine Fl.le_antisymm ?_ (hfit.2 hNN hgb)
      rcases h3 hNN with h0 | ⟨u, hu, hle'⟩
      · rw [h0]; exact Fl.le_pinf hbn
      · exact Fl.le_trans (hle u hu) hle'
    refine ⟨fun r' hr' => ?_, fun r' hr' => ?_⟩
    · cases hr'; exact ⟨h1, hfit.1, hb⟩
    · cases List.mem_singleton.1 hr'; exact hmem
  · rintro ⟨s, xb, fxb⟩ hist g ⟨hJ1, hJ2⟩
    obtain ⟨h1, h2, h3⟩ := hJ1 _ rfl
    obtain ⟨e, he, hef⟩ := hJ2 _ List.mem_cons_self
    refine Prog.wp_mono (fun r g' hr => ?_) (wp_iter (C := env.ctx True) trivial B p h1 ⟨h2, fun _ => h3⟩)
    obtain ⟨i1, -, -, i4, -, i6⟩ := hr
    obtain ⟨e', he', hle⟩ := i6 hNN ⟨e, he, by rw [hef]; exact Fl.le_refl (hNN _ _ h2)⟩
    refine ⟨fun r' hr' => ?_, fun r' hr' => ?_⟩
    · cases hr'; exact ⟨i1, i4.fit, i4.eq hNN⟩
    · rcases List.mem_cons.1 hr' with rfl | hr'
      · exact ⟨e', he', Fl.le_antisymm hle (i4.le_fit (i1 e' he') hNN)⟩
      · exact hJ2 r' hr'

/-- Truncating does not give more than rounding (true of exact arithmetic and of binary64, as the product is the same). -/
def CapLaw (p : Par) : Prop := ∀ n m c, nextArc p n = .ok m → capacity p n = .ok c → (m : ℤ) ≤ max c 0

/-- C35: the number of individuals in the archive is never larger than the number of its rows, which is the capacity
`round(population_size * extern_arc_rate)` for the initial population, and never larger than the capacity for the current one. -/
theorem C35_archive (hp : CapLaw p) (h : (alg opt B p).Trace env ncb hist w) :
    ∀ r ∈ hist, r.1.cnt ≤ r.1.arc.length ∧ capacity p p.N = .ok r.1.arc.length ∧
      ∀ c, capacity p r.1.pop.length = .ok c → (r.1.cnt : ℤ) ≤ max c 0 := by
  refine h.states (P := fun s : St D => s.cnt ≤ s.arc.length ∧ capacity p p.N = .ok s.arc.length ∧
    ∀ c, capacity p s.pop.length = .ok c → (s.cnt : ℤ) ≤ max c 0)
    (fun g => Prog.wp_mono (fun s _ hs => ⟨by omega, hs.2.2.2, fun c _ => by rw [hs.2.2.1]; simp⟩) (init_any g)) fun r g hr => ?_
  have hr : r.1.cnt ≤ r.1.arc.length ∧ capacity p p.N = .ok r.1.arc.length ∧
    ∀ c, capacity p r.1.pop.length = .ok c → (r.1.cnt : ℤ) ≤ max c 0 := hr
  refine iter_any r.1 r.2.1 r.2.2 g fun l new size a s' b hl hsize ha hred _ => ?_
  show s'.cnt ≤ s'.arc.length ∧ capacity p p.N = .ok s'.arc.length ∧ ∀ c, capacity p s'.pop.length = .ok c → (s'.cnt : ℤ) ≤ max c 0
  have harc := hred.arc
  rw [(learn_arc p _ _).1] at harc
  simp only at harc
  have hsame := hred.same
  rw [(learn_arc p _ _).2, learn_pop] at hsame
  simp only at hsame
  have hlen : (survivors l new).length = l.length := by simp [survivors]
  have ha2 : (a.2 : ℤ) ≤ max size 0 ∧ a.2 ≤ r.1.arc.length := by
    have := hr.2.2 size (by rw [← hl.length_eq]; exact hsize)
    have := hr.1
    clear hsame
    omega
  rw [harc, ha.1]
  refine ⟨?_, hr.2.1, fun c hc => ?_⟩
  · rcases hsame with h | h
    · rw [h.2]; exact ha2.2
    · obtain ⟨n, m, -, -, -, -, h⟩ := h
      rw [h]; exact (min_le_left _ _).trans ha2.2
  · rcases hsame with ⟨h1, h2⟩ | ⟨n, m, h3, h4, h5, h6, h7⟩
    · rw [h1, hlen, hsize] at hc
      cases hc
      omega
    · rw [h5, remove_length _ _ (by omega)] at hc
      have : (survivors l new).length - ((survivors l new).length - n) = n := by omega
      rw [this] at hc
      have := hp n m c h6 hc
      omega

omit [Arith] in
/-- Without rounding errors and with `round` to a nearest integer, `CapLaw` holds. -/
theorem capLaw_exact {fn : Fn → Fl → Fl} (hround : ∀ q : ℚ, ∃ z : ℤ, fn .round (.fin q) = .fin z ∧ q ≤ z + 1 / 2) (p : Par) :
    @CapLaw (exactArith fn) p := by
  letI := exactArith fn
  intro n m c hm hc
  unfold nextArc at hm
  unfold capacity roundInt at hc
  generalize (Fl.ofNat n * p.arcRate : Fl) = v at hm hc
  cases v with
  | fin q =>
    obtain ⟨z, hz, hq⟩ := hround q
    have hm : Except.ok (ε := PyErr) (if 0 ≤ q then ⌊q⌋ else ⌈q⌉).toNat = .ok m := hm
    have hc : toInt (fn .round (.fin q)) = .ok c := hc
    rw [hz] at hc
    have hcz : c = z := by
      simp only [toInt, Int.floor_intCast, Int.ceil_intCast, ite_self, Except.ok.injEq] at hc
      exact hc.symm
    cases hm
    subst hcz
    split
    · have h1 : (⌊q⌋ : ℚ) ≤ q := Int.floor_le q
      have h2 : (⌊q⌋ : ℚ) < c + 1 := by linarith
      have h3 : ⌊q⌋ < c + 1 := by exact_mod_cast h2
      omega
    · rename_i h
      have : ⌈q⌉ ≤ 0 := Int.ceil_le.2 (by push_cast; linarith)
      omega
  | nan => cases hm
  | pinf => cases hm
  | ninf => cases hm

/-! ### C36 -/

omit [Arith] in
theorem clip01_pos {v : Fl} (h : Fl.fin 0 < v) : Fl.fin 0 ≤ clip01 v ∧ clip01 v ≤ Fl.fin 1 := by
  unfold clip01
  cases v <;> simp_all
  rename_i q
  split
  · simp
  · split
    · simp
    · rename_i h1 h2; simp only [Fl.fin_le_fin]; constructor <;> linarith

omit [Arith] in
theorem clip01_range (v : Fl) : ¬ clip01 v < Fl.fin 0 ∧ ¬ Fl.fin 1 < clip01 v := by
  unfold clip01
  split
  · simp
  · split
    · simp
    · exact ⟨‹_›, ‹_›⟩

theorem earlyF_range (v : TaskView) {f : Fl} (h : Fl.fin 0 ≤ f ∧ f ≤ Fl.fin 1) : Fl.fin 0 ≤ earlyF p v f ∧ earlyF p v f ≤ Fl.fin 1 := by
  unfold earlyF
  repeat' split
  all_goals first | exact h | (constructor <;> decide +kernel)

theorem earlyCR_range (v : TaskView) {f : Fl} (h : ¬ f < Fl.fin 0 ∧ ¬ Fl.fin 1 < f) : ¬ earlyCR p v f < Fl.fin 0 ∧ ¬ Fl.fin 1 < earlyCR p v f := by
  unfold earlyCR
  repeat' split
  all_goals first | exact h | (constructor <;> decide +kernel)

/-- The scale factor is within `[0, 1]`; the crossover rate is not outside of it. -/
def InRange (e : SA) : Prop := (Fl.fin 0 ≤ e.f ∧ e.f ≤ Fl.fin 1) ∧ ¬ e.cr < Fl.fin 0 ∧ ¬ Fl.fin 1 < e.cr

theorem default_inRange (p : Par) : InRange p.default := by
  unfold Par.default InRange
  split <;> decide +kernel

theorem evolve_inRange (s : St D) (l : List (Ind D SA)) (g : Ghost (Vec D)) :
    (evolve B p s l).wp Ctx.any (fun new _ => ∀ i, InRange (new i).ext) g := by
  simp only [evolve, Prog.wp_bind', Prog.wp_look]
  intro v
  refine (Yields.tabM (P := fun _ e => InRange e) fun i => (genParams_yields p v s.hcr s.hf).mono fun e he => ?_).wp fun ps hps => ?_
  · obtain ⟨f, cr, hf, rfl⟩ := he
    exact ⟨earlyF_range v (clip01_pos hf), earlyCR_range v (clip01_range cr)⟩
  · refine Prog.wp_any _ (fun n g => Prog.wp_any _ (fun xs g => ?_) g) _
    refine Prog.wp_mono (fun r g' h => h.2) (wp_tabM (fun _ _ => True) (fun _ a => InRange a.ext) trivial fun i g _ => ?_)
    simp only [Prog.wp_bind']
    exact Prog.wp_any _ (fun x g => Prog.wp_any _ (fun v g => ⟨trivial, hps i⟩) g) g

theorem iter_inRange {s : St D} (h : ∀ e ∈ s.pop, InRange e.ext) (xb : Vec D) (fxb : Fl) (g : Ghost (Vec D)) :
    (iter B p s xb fxb).wp Ctx.any (fun r _ => ∀ e ∈ r.1.pop, InRange e.ext) g := by
  simp only [iter, Prog.wp_bind']
  refine Yields.sortRecs.wp fun l hs => ?_
  refine Prog.wp_mono (fun new g hnew => ?_) (evolve_inRange s l g)
  refine Prog.wp_any _ (fun size g => Prog.wp_any _ (fun a g => Prog.wp_any _ (fun r g => ?_) _) _) _
  refine (post_yields p _).wp fun s' hs' => Prog.wp_any _ (fun r g e he => ?_) _
  have := hs'.1.sub.subset he
  rw [learn_pop] at this
  obtain ⟨i, rfl⟩ := List.mem_ofFn.1 this
  split
  · exact hnew i
  · exact h _ (hs.1.mem_iff.1 (List.get_mem _ _))

/-- C36, SHADE, L-SHADE, ILSHADE: throughout a run, every individual has a scale factor within `[0, 1]`, and its crossover rate is
neither below 0 nor above 1. (Missing: it may be NaN; `C36_shade_exact` says when it is not.) -/
theorem C36_shade_partial (h : (alg opt B p).Trace env ncb hist w) :
    ∀ r ∈ hist, ∀ e ∈ r.1.pop, (Fl.fin 0 ≤ e.ext.f ∧ e.ext.f ≤ Fl.fin 1) ∧ ¬ e.ext.cr < Fl.fin 0 ∧ ¬ Fl.fin 1 < e.ext.cr :=
  h.states (P := fun s : St D => ∀ e ∈ s.pop, InRange e.ext)
    (fun g => Prog.wp_mono (fun s _ hs e he => by rw [hs.2.1 e he]; exact default_inRange p) (init_any g))
    (fun r g hr => iter_inRange hr r.2.1 r.2.2 g)

/-! ### The memories, without rounding -/

/-- Arithmetic on finite numbers is exact. -/
structure ExactArith : Prop where
  add : ∀ a b : ℚ, (Fl.fin a + Fl.fin b : Fl) = .fin (a + b)
  sub : ∀ a b : ℚ, (Fl.fin a - Fl.fin b : Fl) = .fin (a - b)
  mul : ∀ a b : ℚ, (Fl.fin a * Fl.fin b : Fl) = .fin (a * b)
  div : ∀ a b : ℚ, b ≠ 0 → (Fl.fin a / Fl.fin b : Fl) = .fin (a / b)

omit [Arith] in
theorem exactArith_exact (fn : Fn → Fl → Fl) : @ExactArith (exactArith fn) := by
  let _ := exactArith fn
  refine ⟨fun a b => rfl, fun a b => ?_, fun a b => rfl, fun a b hb => ?_⟩
  · change Fl.fin (a + -b) = .fin (a - b)
    rw [sub_eq_add_neg]
  · change Fl.divX (.fin a) (.fin b) = _
    simp [Fl.divX, hb]

/-- A finite number in `[lo, 1]` -/
def Btw (lo : ℚ) (v : Fl) : Prop := ∃ q, v = .fin q ∧ lo ≤ q ∧ q ≤ 1

/-- A finite number in `(0, 1]` -/
def Pos01 (v : Fl) : Prop := ∃ q, v = .fin q ∧ 0 < q ∧ q ≤ 1

omit [Arith] in
theorem Pos01.btw {v : Fl} (h : Pos01 v) : Btw 0 v := by
  obtain ⟨q, rfl, h0, h1⟩ := h
  exact ⟨q, rfl, h0.le, h1⟩

theorem total_exact (hA : ExactArith) {l : List Succ} (hd : ∀ s ∈ l, ∃ q : ℚ, 0 < q ∧ s.d = .fin q) (a : ℚ) :
    ∃ T : ℚ, l.foldl (fun a s => a + s.d) (.fin a) = .fin T ∧ a ≤ T ∧ (l ≠ [] → a < T) := by
  induction l generalizing a with
  | nil => exact ⟨a, rfl, le_rfl, fun h => absurd rfl h⟩
  | cons s l ih =>
    obtain ⟨q, hq, hs⟩ := hd s (by simp)
    obtain ⟨T, h1, h2, -⟩ := ih (fun s hs => hd s (by simp [hs])) (a + q)
    refine ⟨T, ?_, by linarith, fun _ => by linarith⟩
    rw [List.foldl_cons, hs, hA.add, h1]

theorem sums_exact (hA : ExactArith) (sel : Succ → Fl) {l : List Succ} (hne : l ≠ []) (hd : ∀ s ∈ l, ∃ q : ℚ, 0 < q ∧ s.d = .fin q)
    (hv : ∀ s ∈ l, Btw 0 (sel s)) : ∃ a b : ℚ, sums sel l = (.fin a, .fin b) ∧ 0 ≤ a ∧ a ≤ b ∧ ((∀ s ∈ l, Pos01 (sel s)) → 0 < a) := by
  obtain ⟨T, hT, -, hpos⟩ := total_exact hA hd 0
  have hT0 := hpos hne
  have key : ∀ (l : List Succ), (∀ s ∈ l, ∃ q : ℚ, 0 < q ∧ s.d = .fin q) → (∀ s ∈ l, Btw 0 (sel s)) → ∀ a b : ℚ, 0 ≤ a → a ≤ b →
      ∃ a' b' : ℚ, l.foldl (fun a s => (a.1 + s.d / Fl.fin T * sel s * sel s, a.2 + s.d / Fl.fin T * sel s)) (Fl.fin a, Fl.fin b) =
        (.fin a', .fin b') ∧ a ≤ a' ∧ a' ≤ b' ∧ (l ≠ [] → (∀ s ∈ l, Pos01 (sel s)) → a < a') := by
    intro l
    induction l with
    | nil => intro _ _ a b ha hab; exact ⟨a, b, rfl, le_rfl, hab, fun h => absurd rfl h⟩
    | cons s l ih =>
      intro hd hv a b ha hab
      obtain ⟨q, hq, hs⟩ := hd s (by simp)
      obtain ⟨v, hsv, hv0, hv1⟩ := hv s (by simp)
      have hw : 0 < q / T := div_pos hq hT0
      have h1 : 0 ≤ q / T * v * v := by positivity
      have h2 : q / T * v * v ≤ q / T * v := mul_le_of_le_one_right (by positivity) hv1
      obtain ⟨a', b', he, h3, h4, -⟩ := ih (fun s hs => hd s (by simp [hs])) (fun s hs => hv s (by simp [hs])) (a + q / T * v * v)
        (b + q / T * v) (by linarith) (by linarith)
      refine ⟨a', b', ?_, by linarith, h4, fun _ hp => ?_⟩
      · rw [List.foldl_cons]
        simp only [hs, hsv, hA.div _ _ hT0.ne', hA.mul, hA.add]
        exact he
      · obtain ⟨v', hv', hv'0, -⟩ := hp s (by simp)
        rw [hsv] at hv'
        cases hv'
        have : 0 < q / T * v * v := by positivity
        linarith
  obtain ⟨a, b, h1, h2, h3, h4⟩ := key l hd hv 0 0 le_rfl le_rfl
  refine ⟨a, b, ?_, h2, h3, h4 hne⟩
  unfold sums
  rw [hT]
  exact h1

theorem memF_exact (hA : ExactArith) {l : List Succ} (hne : l ≠ []) (hd : ∀ s ∈ l, ∃ q : ℚ, 0 < q ∧ s.d = .fin q)
    (hv : ∀ s ∈ l, Pos01 s.f) {old : Fl} (ho : Pos01 old) : Pos01 (memF p l old) := by
  obtain ⟨a, b, h1, -, h3, h4⟩ := sums_exact hA (·.f) hne hd fun s hs => (hv s hs).btw
  have ha := h4 hv
  have hb : 0 < b := by linarith
  obtain ⟨o, rfl, ho0, ho1⟩ := ho
  have e : Fl.fin a / Fl.fin b = Fl.fin (a / b) := hA.div _ _ hb.ne'
  have q0 : 0 < a / b := div_pos ha hb
  have q1 : a / b ≤ 1 := (div_le_one hb).2 h3
  simp only [memF, h1]
  rw [e]
  split
  · rw [hA.add, show Fl.ofNat 2 = Fl.fin 2 from rfl, hA.div _ _ (by norm_num)]
    exact ⟨_, rfl, by linarith, by linarith⟩
  · exact ⟨_, rfl, q0, q1⟩

theorem memCR_exact (hA : ExactArith) {l : List Succ} (hne : l ≠ []) (hd : ∀ s ∈ l, ∃ q : ℚ, 0 < q ∧ s.d = .fin q)
    (hv : ∀ s ∈ l, Btw 0 s.cr) {old : Fl} (ho : Btw (-1) old) : Btw (-1) (memCR p l old) := by
  obtain ⟨a, b, h1, h2, h3, -⟩ := sums_exact hA (·.cr) hne hd hv
  obtain ⟨o, rfl, ho0, ho1⟩ := ho
  have key : Btw (-1) (if Fl.fin b = .fin 0 ∨ Fl.fin o = .fin (-1) then .fin (-1) else Fl.fin a / Fl.fin b) := by
    split
    · exact ⟨_, rfl, le_rfl, by norm_num⟩
    · rename_i h
      have hb : b ≠ 0 := fun hb => h (Or.inl (by rw [hb]))
      have hb0 : 0 < b := lt_of_le_of_ne (h2.trans h3) (Ne.symm hb)
      rw [hA.div _ _ hb]
      have : 0 ≤ a / b := div_nonneg h2 hb0.le
      exact ⟨_, rfl, by linarith, (div_le_one hb0).2 h3⟩
  simp only [memCR, h1]
  split
  · obtain ⟨q, hq, h3, h4⟩ := key
    rw [hq, hA.add, show Fl.ofNat 2 = Fl.fin 2 from rfl, hA.div _ _ (by norm_num)]
    exact ⟨_, rfl, by linarith, by linarith⟩
  · exact key

omit [Arith] in
theorem getD_mem {l : List Fl} {i : ℕ} (h : i < l.length) {d : Fl} : l.getD i d ∈ l := by
  simp [List.getD, h]

/-- What holds of a state if no fitness value is infinite. -/
structure Sane (p : Par) (s : St D) : Prop where
  fit : ∀ e ∈ s.pop, ∃ q, e.f = .fin q
  f : ∀ e ∈ s.pop, Pos01 e.ext.f
  cr : ∀ e ∈ s.pop, Btw 0 e.ext.cr
  hf : ∀ v ∈ s.hf, Pos01 v
  hcr : ∀ v ∈ s.hcr, Btw (-1) v
  len : s.hcr.length = p.H

omit [Arith] in
theorem pos01_clip {v : Fl} (h : Fl.fin 0 < v) : Pos01 (clip01 v) := by
  unfold clip01
  cases v with
  | fin q =>
    simp only [Fl.fin_lt_fin] at h ⊢
    rw [if_neg (by linarith)]
    split
    · exact ⟨1, rfl, by norm_num, le_rfl⟩
    · exact ⟨q, rfl, h, by linarith⟩
  | pinf => simp; exact ⟨1, rfl, by norm_num, le_rfl⟩
  | ninf => simp at h
  | nan => simp at h

omit [Arith] in
theorem btw_clip {v : Fl} (h : v ≠ .nan) : Btw 0 (clip01 v) := by
  unfold clip01
  cases v with
  | fin q =>
    simp only [Fl.fin_lt_fin]
    split
    · exact ⟨0, rfl, le_rfl, by norm_num⟩
    · split
      · exact ⟨1, rfl, by norm_num, le_rfl⟩
      · exact ⟨q, rfl, by linarith, by linarith⟩
  | pinf => simp; exact ⟨1, rfl, by norm_num, le_rfl⟩
  | ninf => simp; exact ⟨0, rfl, le_rfl, by norm_num⟩
  | nan => exact absurd rfl h

omit [Arith] in
theorem pos01_lit {n d : ℕ} (h0 : 0 < n) (h1 : n ≤ d) : Pos01 (lit n d) := by
  have hd : (0 : ℚ) < d := by exact_mod_cast (by omega : 0 < d)
  refine ⟨n / d, rfl, div_pos (by exact_mod_cast h0) hd, (div_le_one hd).2 (by exact_mod_cast h1)⟩

theorem earlyF_pos {v : TaskView} {f : Fl} (h : Pos01 f) : Pos01 (earlyF p v f) := by
  unfold earlyF
  repeat' split
  all_goals first | exact h | exact pos01_lit (by norm_num) (by norm_num)

theorem earlyCR_btw {v : TaskView} {f : Fl} (h : Btw 0 f) : Btw 0 (earlyCR p v f) := by
  unfold earlyCR
  repeat' split
  all_goals first | exact h | exact (pos01_lit (by norm_num) (by norm_num)).btw

/-- Drawing from a normal distribution with a finite mean never yields NaN. -/
def NormalOK (env : Env (Vec D)) : Prop := ∀ k (m : ℚ) s, env.rng.dist k .normal (.fin m) s ≠ .nan

theorem genParams_sane (hn : NormalOK env) {s : St D} (hs : Sane p s) (v : TaskView) :
    Post env (genParams p v s.hcr s.hf) fun e => Pos01 e.f ∧ Btw 0 e.cr := by
  unfold genParams
  refine .bind' (.yields Yields.int) fun mi hmi => ?_
  have hm : Btw (-1) (fromMemory p s.hcr s.hf mi).1 := by
    unfold fromMemory
    split
    · obtain ⟨q, h1, h2, h3⟩ := (pos01_lit (n := 9) (d := 10) (by norm_num) (by norm_num))
      exact ⟨q, h1, by linarith, h3⟩
    · refine hs.hcr _ ?_
      dsimp only
      exact getD_mem (by rw [hs.len]; exact hmi)
  generalize fromMemory p s.hcr s.hf mi = m at hm ⊢
  obtain ⟨mcr, mf⟩ := m
  refine .bind' (P := fun cr => cr ≠ .nan) ?_ fun cr hcr => .bind' (.yields (cauchy_yields _ _ _)) fun f hf =>
    .pure' ⟨earlyF_pos (pos01_clip hf), earlyCR_btw (btw_clip hcr)⟩
  unfold drawCR
  split
  · obtain ⟨q, h1, -⟩ := hm
    dsimp only at h1
    rw [h1]
    exact Post.dist fun k => hn k q _
  · exact .pure' (by simp)

/-- The objective is finite. -/
def FiniteObj (env : Env (Vec D)) : Prop := ∀ k x r, env.obj k x = .ok r → ∃ q, r = .fin q

theorem evolve_sane (hn : NormalOK env) (ho : FiniteObj env) {s : St D} (hs : Sane p s) (l : List (Ind D SA)) :
    Post env (evolve B p s l) fun new => ∀ i, Pos01 (new i).ext.f ∧ Btw 0 (new i).ext.cr ∧ ((new i).f = .pinf ∨ ∃ q, (new i).f = .fin q) := by
  unfold evolve
  refine .bind' (P := fun _ => True) .any fun v _ => .bind' (Post.tabM fun i => genParams_sane hn hs v) fun ps hps =>
    .bind' (P := fun _ => True) .any fun n _ => .bind' (P := fun _ => True) .any fun xs _ => ?_
  refine Post.tabM (P := fun _ (a : Ind D SA) => Pos01 a.ext.f ∧ Btw 0 a.ext.cr ∧ (a.f = .pinf ∨ ∃ q, a.f = .fin q)) fun i =>
    .bind' (P := fun _ => True) .any fun x _ => .bind' (Post.eval fun v hv => hv) fun v hv => .pure' ?_
  refine ⟨(hps i).1, (hps i).2, ?_⟩
  rcases hv with h | ⟨k, r, hr, h⟩
  · exact Or.inl h
  · obtain ⟨q, rfl⟩ := ho k x r hr
    right
    rw [h]
    cases env.opt
    · exact ⟨q, rfl⟩
    · exact ⟨-q, rfl⟩

omit [Arith] in
/-- A fitness value that is not worse than a finite one. -/
theorem fin_of_le {a b : Fl} (ha : a = .pinf ∨ ∃ q, a = .fin q) (hb : ∃ q, b = .fin q) (h : a ≤ b) : ∃ q, a = .fin q := by
  rcases ha with rfl | h'
  · obtain ⟨q, rfl⟩ := hb; simp at h
  · exact h'

theorem learn_sane (hA : ExactArith) {s : St D} (hs : Sane p s) {l : List Succ} (hd : ∀ s ∈ l, ∃ q : ℚ, 0 < q ∧ s.d = .fin q)
    (hf : ∀ s ∈ l, Pos01 s.f) (hcr : ∀ s ∈ l, Btw 0 s.cr) : Sane p (learn p l s) := by
  unfold learn
  split
  · exact hs
  · rename_i hne
    have hne : l ≠ [] := by simpa using hne
    refine ⟨hs.fit, hs.f, hs.cr, ?_, ?_, by simpa using hs.len⟩
    · intro v hv
      by_cases hk : s.k < s.hf.length
      · rcases List.mem_or_eq_of_mem_set hv with h | rfl
        · exact hs.hf v h
        · refine memF_exact hA hne hd hf (hs.hf _ ?_)
          exact getD_mem hk
      · dsimp only at hv
        rw [List.set_eq_of_length_le (by omega)] at hv
        exact hs.hf v hv
    · intro v hv
      by_cases hk : s.k < s.hcr.length
      · rcases List.mem_or_eq_of_mem_set hv with h | rfl
        · exact hs.hcr v h
        · refine memCR_exact hA hne hd hcr (hs.hcr _ ?_)
          exact getD_mem hk
      · dsimp only at hv
        rw [List.set_eq_of_length_le (by omega)] at hv
        exact hs.hcr v hv

theorem iter_sane (hA : ExactArith) (hn : NormalOK env) (ho : FiniteObj env) {s : St D} (hs : Sane p s) (xb : Vec D) (fxb : Fl) :
    Post env (iter B p s xb fxb) fun r => Sane p r.1 := by
  unfold iter
  refine .bind' (.yields Yields.sortRecs) fun l hl => .bind' (evolve_sane hn ho hs l) fun new hnew => .bind' (P := fun _ => True) .any fun size _ =>
    .bind' (P := fun _ => True) .any fun a _ => .bind' (P := fun _ => True) .any fun b _ => ?_
  have hold : ∀ i, l.get i ∈ s.pop := fun i => hl.1.mem_iff.1 (List.get_mem _ _)
  have h1 : Sane p { s with pop := survivors l new, arc := a.1, cnt := a.2 } := by
    refine ⟨?_, ?_, ?_, hs.hf, hs.hcr, hs.len⟩ <;> intro e he <;> obtain ⟨i, rfl⟩ := List.mem_ofFn.1 he <;> split
    · rename_i h; exact fin_of_le (hnew i).2.2 (hs.fit _ (hold i)) h
    · exact hs.fit _ (hold i)
    · exact (hnew i).1
    · exact hs.f _ (hold i)
    · exact (hnew i).2.1
    · exact hs.cr _ (hold i)
  have hsucc : ∀ c ∈ successes l new, (∃ q : ℚ, 0 < q ∧ c.d = .fin q) ∧ Pos01 c.f ∧ Btw 0 c.cr := by
    intro c hc
    obtain ⟨i, -, hi⟩ := List.mem_filterMap.1 hc
    split at hi
    · rename_i hlt
      cases hi
      refine ⟨?_, (hnew i).1, (hnew i).2.1⟩
      obtain ⟨q, hq⟩ := hs.fit _ (hold i)
      obtain ⟨q', hq'⟩ := fin_of_le (hnew i).2.2 (hs.fit _ (hold i)) (Fl.le_of_lt hlt)
      rw [hq, hq', Fl.fin_lt_fin] at hlt
      refine ⟨|q - q'|, abs_pos.2 (by linarith), ?_⟩
      dsimp only
      rw [hq, hq', hA.sub]
      rfl
    · cases hi
  have h2 := learn_sane hA h1 (l := successes l new) (fun c hc => (hsucc c hc).1) (fun c hc => (hsucc c hc).2.1) fun c hc => (hsucc c hc).2.2
  refine .bind' (.yields (post_yields p _)) fun s' hs' => .bind' (P := fun _ => True) .any fun b _ => .pure' ?_
  have hsub := hs'.1.sub
  refine ⟨fun e he => h2.fit e (hsub.subset he), fun e he => h2.f e (hsub.subset he), fun e he => h2.cr e (hsub.subset he), ?_, ?_, ?_⟩
  · intro v hv; rw [hs'.1.hf] at hv; exact h2.hf v hv
  · intro v hv; rw [hs'.1.hcr] at hv; exact h2.hcr v hv
  · show s'.hcr.length = p.H; rw [hs'.1.hcr]; exact h2.len

/-- C36, without rounding, if the objective and the fitness values of the initial population are finite: throughout a run, scale
factors are in `(0, 1]`, crossover rates in `[0, 1]`; the remembered scale factors are in `(0, 1]` and the remembered crossover
rates in `[-1, 1]` (in SHADE and L-SHADE, -1 is the mark for "always 0"). -/
theorem C36_shade_exact (hA : ExactArith) (hn : NormalOK env) (ho : FiniteObj env) (h : (alg opt B p).Trace env ncb hist w)
    (h0 : ∀ r ∈ hist.getLast?, ∀ e ∈ r.1.pop, ∃ q, e.f = .fin q) :
    ∀ r ∈ hist, (∀ e ∈ r.1.pop, Pos01 e.ext.f ∧ Btw 0 e.ext.cr) ∧ (∀ v ∈ r.1.hf, Pos01 v) ∧ ∀ v ∈ r.1.hcr, Btw (-1) v := by
  have hdf : Pos01 p.default.f ∧ Pos01 p.default.cr := by
    unfold Par.default
    split <;> exact ⟨pos01_lit (by norm_num) (by norm_num), pos01_lit (by norm_num) (by norm_num)⟩
  have hfirst := h.first (P := fun s : St D => (∀ e ∈ s.pop, e.ext = p.default) ∧ s.hf = List.replicate p.H (lit 1 2) ∧
    s.hcr = List.replicate p.H p.default.cr) fun g => by
      simp only [alg, init, Prog.wp_bind']
      refine Prog.wp_mono (fun l g' hl => Prog.wp_any _ (fun a g => ⟨hl, rfl, rfl⟩) _) (JDE.init_ext opt B p.N p.default g)
  have key := h.keep (P := fun s : St D => Sane p s) (fun r hr => ?_) fun r hr => iter_sane hA hn ho hr r.2.1 r.2.2
  · intro r hr
    have := key r hr
    exact ⟨fun e he => ⟨this.f e he, this.cr e he⟩, this.hf, this.hcr⟩
  · obtain ⟨h1, h2, h3⟩ := hfirst r hr
    have h2 : r.1.hf = List.replicate p.H (lit 1 2) := h2
    have h3 : r.1.hcr = List.replicate p.H p.default.cr := h3
    refine ⟨h0 r hr, fun e he => by rw [h1 e he]; exact hdf.1, fun e he => by rw [h1 e he]; exact hdf.2.btw, fun v hv => ?_, fun v hv => ?_, ?_⟩
    · rw [h2] at hv; rw [List.eq_of_mem_replicate hv]; exact pos01_lit (by norm_num) (by norm_num)
    · rw [h3] at hv
      rw [List.eq_of_mem_replicate hv]
      obtain ⟨q, e, q0, q1⟩ := hdf.2
      exact ⟨q, e, by linarith, q1⟩
    · rw [h3]; simp

/-- `cauchy` with a mean that is NaN never returns: whatever is drawn, it ends in `RecursionError`. -/
theorem cauchy_nan (hadd : ∀ a, (Fl.nan + a : Fl) = .nan) (gamma : Fl) (n : ℕ) (w : World (Vec D)) :
    ((cauchy .nan gamma n : Prog (Vec D) Fl).run env w).1 = .error .recursionError := by
  induction n generalizing w with
  | zero => rfl
  | succ n ih =>
    have : (cauchy .nan gamma (n + 1) : Prog (Vec D) Fl) = Prog.rand.bind fun _ => cauchy .nan gamma n := by
      simp only [cauchy, hadd, Fl.not_lt_nan, if_false]
      rfl
    rw [this, Prog.run_bind]
    have hr : Prog.rand.run env w = _ := Prog.run_lift env .rand w
    rw [hr]
    exact ih _

/-- Parameters for the examples. -/
def Ex.par (H : ℕ) (lpsr : Bool) (ilEnd : Option Fl) : Par := ⟨5, .fin 2, .fin (1 / 10), H, lpsr, ilEnd, 8⟩

/-- The objective is infinite at the first point that is evaluated, and 0 from then on. -/
def Ex.infEnv : Env (Vec 1) :=
  NiaPy.Ex.env (fun k _ => .ok (if k = 0 then .pinf else .fin 0)) .minimization none (some 2) none NiaPy.Ex.draws fun _ _ x i => NiaPy.Ex.clip1 (x i)

/-- The same with 0 from the beginning. -/
def Ex.fin0Env : Env (Vec 1) :=
  NiaPy.Ex.env (fun _ _ => .ok (.fin 0)) .minimization none (some 2) none NiaPy.Ex.draws fun _ _ x i => NiaPy.Ex.clip1 (x i)

omit [Arith] in
/-- C55: SHADE does not complete with every objective: after an individual of infinite fitness was improved, the scale factor in
the memory is NaN, and the recursion in `cauchy` does not end. -/
theorem C55_shade_false :
    ((@alg NiaPy.Ex.arith 1 .minimization (NiaPy.Ex.box 1) (Ex.par 1 false none)).exec Ex.infEnv true 0 5).1 = .error .recursionError := by
  have h : (match ((@alg NiaPy.Ex.arith 1 .minimization (NiaPy.Ex.box 1) (Ex.par 1 false none)).exec Ex.infEnv true 0 5).1 with
      | .error .recursionError => true | _ => false) = true := by decide +kernel
  split at h
  · assumption
  · cases h

/-! ### C68: the memory of successful parameters -/

/-- One iteration changes nothing in the memories, or only slot `k`, and then moves to the next slot, cyclically. -/
def NextSlot (H : ℕ) (s' s : St D) : Prop :=
  (s'.hf = s.hf ∧ s'.hcr = s.hcr ∧ s'.k = s.k) ∨
  ((∀ j, j ≠ s.k → s'.hf[j]? = s.hf[j]? ∧ s'.hcr[j]? = s.hcr[j]?) ∧ s'.k = (s.k + 1) % H)

/-- C68: both memories always have `hist_mem_size` entries and the slot to be written next exists; in every iteration at most
this slot is written and the slots are used in turn. -/
theorem C68_memory (hH : 0 < p.H) (h : (alg opt B p).Trace env ncb hist w) :
    (∀ r ∈ hist, r.1.hf.length = p.H ∧ r.1.hcr.length = p.H ∧ r.1.k < p.H) ∧ hist.IsChain (fun r' r => NextSlot p.H r'.1 r.1) := by
  have key : ∀ (s : St D) (xb : Vec D) (fxb : Fl) (g : Ghost (Vec D)), (iter B p s xb fxb).wp Ctx.any
      (fun r _ => (s.hf.length = p.H ∧ s.hcr.length = p.H ∧ s.k < p.H) →
        (r.1.hf.length = p.H ∧ r.1.hcr.length = p.H ∧ r.1.k < p.H) ∧ NextSlot p.H r.1 s) g := by
    intro s xb fxb g
    refine iter_any s xb fxb g fun l new size a s' b _ _ _ hred _ hs => ?_
    obtain ⟨h1, h2, h3⟩ := hs
    have e1 := hred.hf
    have e2 := hred.hcr
    have e3 := hred.k
    unfold learn at e1 e2 e3
    simp only [NextSlot]
    split at e1
    · rename_i hl
      rw [if_pos hl] at e2 e3
      rw [e1, e2, e3]
      exact ⟨⟨h1, h2, h3⟩, Or.inl ⟨rfl, rfl, rfl⟩⟩
    · rename_i hl
      rw [if_neg hl] at e2 e3
      rw [e1, e2, e3]
      refine ⟨⟨by simpa using h1, by simpa using h2, by simp only; split <;> omega⟩, Or.inr ⟨fun j hj => ?_, ?_⟩⟩
      · simp [List.getElem?_set, Ne.symm hj]
      · simp only
        split
        · have : s.k + 1 = p.H := by omega
          rw [this, Nat.mod_self]
        · rw [Nat.mod_eq_of_lt (by omega)]
  let P : St D × Vec D × Fl → Prop := fun r => r.1.hf.length = p.H ∧ r.1.hcr.length = p.H ∧ r.1.k < p.H
  have hP : ∀ r ∈ hist, P r := h.states (P := fun s : St D => s.hf.length = p.H ∧ s.hcr.length = p.H ∧ s.k < p.H)
    (fun g => by
      simp only [alg, init, Prog.wp_bind']
      refine Prog.wp_any _ (fun l g => Prog.wp_any _ (fun arc g => ?_) _) _
      exact ⟨by simp, by simp, hH⟩)
    fun r g hr => Prog.wp_mono (fun r' _ h' => (h' hr).1) (key r.1 r.2.1 r.2.2 g)
  have hR : hist.IsChain fun r' r => P r → NextSlot p.H r'.1 r.1 :=
    h.chain (R := fun (r' r : St D × Vec D × Fl) => P r → NextSlot p.H r'.1 r.1)
      fun r g => Prog.wp_mono (fun r' _ h' hr => (h' hr).2) (key r.1 r.2.1 r.2.2 g)
  refine ⟨hP, ?_⟩
  clear h
  induction hist with
  | nil => exact .nil
  | cons r l ih =>
    cases l with
    | nil => exact .singleton _
    | cons r2 l =>
      rw [List.isChain_cons_cons] at hR ⊢
      exact ⟨hR.1 (hP r2 (by simp)), ih (fun r hr => hP r (List.mem_cons_of_mem _ hr)) hR.2⟩

/-! ### Runs -/

/-- Executions of SHADE, L-SHADE and ILSHADE with two iterations. -/
example : ∃ hist w, letI := NiaPy.Ex.arith
    Alg.Trace (alg .minimization (NiaPy.Ex.box 1) (Ex.par 3 false none)) NiaPy.Ex.env2 2 hist w ∧ hist.length = 3 :=
  letI := NiaPy.Ex.arith; (verified .minimization (NiaPy.Ex.box 1) _).toIf.exists_trace NiaPy.Ex.env2 (metBy_none _ _) (fuel := 5)
    (by decide +kernel)

example : ∃ hist w, letI := NiaPy.Ex.arith
    Alg.Trace (alg .minimization (NiaPy.Ex.box 1) (Ex.par 3 true none)) (NiaPy.Ex.env2 2 (some 20)) 2 hist w ∧ hist.length = 3 :=
  letI := NiaPy.Ex.arith; (verified .minimization (NiaPy.Ex.box 1) _).toIf.exists_trace (NiaPy.Ex.env2 2 (some 20)) (metBy_none _ _) (fuel := 5)
    (by decide +kernel)

example : ∃ hist w, letI := NiaPy.Ex.arith
    Alg.Trace (alg .minimization (NiaPy.Ex.box 1) (Ex.par 3 true (some (.fin (1 / 20))))) (NiaPy.Ex.env2 2 (some 20)) 2 hist w ∧ hist.length = 3 :=
  letI := NiaPy.Ex.arith; (verified .minimization (NiaPy.Ex.box 1) _).toIf.exists_trace (NiaPy.Ex.env2 2 (some 20)) (metBy_none _ _) (fuel := 5)
    (by decide +kernel)

/-- `CapLaw` holds with exact arithmetic and rounding to the next integer below or equal plus one half. -/
example (p : Par) : @CapLaw (exactArith fun f v => match f, v with | .round, .fin q => .fin ⌊q + 1 / 2⌋ | _, v => v) p :=
  capLaw_exact (fun q => ⟨⌊q + 1 / 2⌋, rfl, by have := Int.lt_floor_add_one (q + 1 / 2); linarith⟩) p

/-- The hypotheses of `C36_shade_exact` on the generator and on the objective hold in an example. -/
example : NormalOK Ex.fin0Env ∧ FiniteObj Ex.fin0Env := ⟨fun k m s h => (by
  have h : Fl.fin ((k * 3 % 7 : ℕ) / 4 - 1) = .nan := h
  cases h), fun k x r h => ⟨0, by cases h; rfl⟩⟩

end NiaPy.SHADE
