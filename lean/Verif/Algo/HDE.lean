import Verif.Algo.DE
import Verif.Algo.MTS
import Verif.Congr

/-! # Differential evolution with multiple trajectory search

Model of `/repo/src/niapy/algorithms/modified/hde.py`: DifferentialEvolutionMTS, its variant with several strategies, those with a
population that shrinks, and the `v1` variants (which differ in the list of local searches). Evolution and selection are those of
`DE` (de.py), the local searches those of `MTS` (mts.py). -/

namespace NiaPy.HDE

variable [Arith] {D : ℕ}

/-- What an `MtsIndividual` has beside solution and fitness (hde.py:34-52); `grade` is 0 throughout (the searches set another
attribute, `grades`). -/
structure Mark (D : ℕ) where
  enable : Bool
  imp : Bool
  sr : Vec D

/-- A new `MtsIndividual` (hde.py:34-52). -/
def fresh (B : Box D) : Mark D := ⟨true, false, fun j => (B.hi j - B.lo j) / Fl.ofNat 4⟩

abbrev Ind (D : ℕ) := DE.Ind D (Mark D)

/-- Body of the loop of `post_selection` (hde.py:129-133). `xb` is an array of its own here, `get_best` returns copies. -/
def turn (B : Box D) (p : MTS.Par) (e : Ind D) (xb : Vec D) (fxb : Fl) : Prog (Vec D) (Ind D × Vec D × Fl) :=
  if e.ext.enable then do
    let r ← MTS.improve B p ⟨e.x, e.f, xb, fxb, false, e.ext.imp, e.ext.sr, Fl.ofNat 0⟩
    return (⟨r.x, r.fx, ⟨false, r.imp, r.sr⟩⟩, r.best, r.fxb)
  else return (e, xb, fxb)

/-- The loop of `post_selection` (hde.py:128-133). -/
def turns (B : Box D) (p : MTS.Par) : List (Ind D) → Vec D → Fl → Prog (Vec D) (List (Ind D) × Vec D × Fl)
  | [], xb, fxb => return ([], xb, fxb)
  | e :: l, xb, fxb => do
    let a ← turn B p e xb fxb
    let r ← turns B p l a.2.1 a.2.2
    return (a.1 :: r.1, r.2)

/-- `for i in population[np.argsort([x.grade for x in population])[:self.num_enabled:]]: i.enable = True` (hde.py:134-135): all grades
are 0. -/
def enable (n : ℕ) (l : List (Ind D)) : Prog (Vec D) (List (Ind D)) := do
  let o ← sortIdx fun _ : Fin l.length => Fl.ofNat 0
  return List.ofFn fun i => { l.get i with
    ext := { (l.get i).ext with enable := (l.get i).ext.enable || (List.finRange l.length).any fun k => decide ((k : ℕ) < n ∧ o k = i) } }

/-- `run_iteration` (de.py:392-422) with the `post_selection` of DifferentialEvolutionMTS (hde.py:115-136), preceded by `red`: nothing,
or the reduction of DynNpDifferentialEvolution (hde.py:260-263). -/
def iter (B : Box D) (p : MTS.Par) (ev : DE.Evolve D (Mark D)) (red : List (Ind D) → Prog (Vec D) (List (Ind D))) (l : List (Ind D))
    (xb : Vec D) (fxb : Fl) : Prog (Vec D) (List (Ind D) × Vec D × Fl) := do
  let new ← ev l xb
  let (l, xb, fxb) ← DE.select l new xb fxb
  let l ← red l
  let (l, xb, fxb) ← turns B p l xb fxb
  let l ← enable p.enabled l
  let (xb, fxb) ← DE.best l xb fxb
  return (l, xb, fxb)

def mk (opt : OptType) (B : Box D) (N : ℕ) (p : MTS.Par) (ev : DE.Evolve D (Mark D)) (red : List (Ind D) → Prog (Vec D) (List (Ind D))) :
    Alg (Vec D) := DE.mk opt B N (fresh B) (iter B p ev red)

/-- DifferentialEvolutionMTS (hde.py:55-136), DifferentialEvolutionMTSv1 (hde.py:139-188). -/
def alg (opt : OptType) (B : Box D) (N : ℕ) (p : MTS.Par) (strat : DE.Strategy D) (f cr : Fl) : Alg (Vec D) :=
  mk opt B N p (DE.evolve opt (fresh B) strat f cr) pure

/-- MultiStrategyDifferentialEvolutionMTS(v1) (hde.py:318-447). -/
def algMulti (opt : OptType) (B : Box D) (N : ℕ) (p : MTS.Par) (strats : List (DE.Strategy D)) (f cr : Fl) : Alg (Vec D) :=
  mk opt B N p (DE.evolveMulti opt (fresh B) strats f cr) pure

/-- DynNpDifferentialEvolutionMTS(v1) (hde.py:191-315). -/
def algDyn (opt : OptType) (B : Box D) (N : ℕ) (p : MTS.Par) (strat : DE.Strategy D) (f cr : Fl) (pMax rp : ℕ) : Alg (Vec D) :=
  mk opt B N p (DE.evolve opt (fresh B) strat f cr) (DE.reduce pMax rp)

/-- DynNpMultiStrategyDifferentialEvolutionMTS(v1) (hde.py:450-565). -/
def algDynMulti (opt : OptType) (B : Box D) (N : ℕ) (p : MTS.Par) (strats : List (DE.Strategy D)) (f cr : Fl) (pMax rp : ℕ) : Alg (Vec D) :=
  mk opt B N p (DE.evolveMulti opt (fresh B) strats f cr) (DE.reduce pMax rp)

/-! ### Obligations -/

variable {B : Box D} {C : Ctx (Vec D)} {g : Ghost (Vec D)} {p : MTS.Par}

/-- The assumptions: nothing is claimed about how solutions and fitness values belong together, or repair is regular, no fitness value
is NaN and only searches without the defects of `mts_ls3` and `mts_ls1v1` are used. -/
def Reg (B : Box D) (p : MTS.Par) (C : Ctx (Vec D)) : Prop := Untied C ∨ MTS.Laws B C ∧ ∀ k ∈ p.ls, k.tidy = true

/-- The bound on rejection loops. -/
def Free (p : MTS.Par) (C : Ctx (Vec D)) : Prop := p.bounded = true ∨ C.oof

theorem wp_turn (hr : Reg B p C) (ho : Free p C) {e : Ind D} {xb : Vec D} {fxb : Fl} (he : C.Fit g.b e.x e.f) (hI : Inc C xb fxb g) :
    (turn B p e xb fxb).wp C (fun t g' => C.Fit g'.b t.1.x t.1.f ∧ Inc C t.2.1 t.2.2 g' ∧
      g.c + (if e.ext.enable then 1 else 0) * (p.calls * p.least D) ≤ g'.c ∧ (p.bounded = true → g'.c ≤ g.c + p.calls * (4 * D))) g := by
  unfold turn
  split
  · rw [Prog.wp_bind']
    have hS : MTS.Sep B C (MTS.Laws B C ∧ ∀ k ∈ p.ls, k.tidy = true) ⟨e.x, e.f, xb, fxb, false, e.ext.imp, e.ext.sr, Fl.ofNat 0⟩ g :=
      ⟨rfl, ⟨_, he⟩, by simpa [MTS.LS.best] using hI, nofun, fun _ => he, fun _ => rfl⟩
    refine MTS.wp_then (MTS.wp_improve ⟨id, ho⟩ hS) ?_
    rintro r g' ⟨h1, h2, h3⟩
    refine ⟨?_, h1.2.inc, by simpa using h2, h3⟩
    rcases hr with hu | hr
    · obtain ⟨y, hy⟩ := h1.2.cur
      exact ⟨hu _ _ _ hy.1, hy.2⟩
    · exact h1.2.ali hr
  · exact ⟨he, hI, by simp, fun _ => by omega⟩

theorem wp_turns (hr : Reg B p C) (ho : Free p C) {l : List (Ind D)} {xb : Vec D} {fxb : Fl} (hl : DE.PopOK C l g.b) (hI : Inc C xb fxb g) :
    (turns B p l xb fxb).wp C (fun t g' => DE.PopOK C t.1 g'.b ∧ t.1.length = l.length ∧ Inc C t.2.1 t.2.2 g' ∧
      g.c + l.countP (·.ext.enable) * (p.calls * p.least D) ≤ g'.c ∧ (p.bounded = true → g'.c ≤ g.c + l.length * (p.calls * (4 * D)))) g := by
  induction l generalizing xb fxb g with
  | nil => exact ⟨by simp [DE.PopOK], rfl, hI, by simp, fun _ => by simp⟩
  | cons e l ih =>
    unfold turns
    rw [Prog.wp_bind']
    refine MTS.wp_then (Prog.wp_below (wp_turn hr ho (hl e (by simp)) hI)) ?_
    rintro a g1 ⟨⟨h1, h2, h3, h4⟩, hb⟩
    rw [Prog.wp_bind']
    refine MTS.wp_then (Prog.wp_below (ih (fun e he => (hl e (by simp [he])).mono hb) h2)) ?_
    rintro r g2 ⟨⟨k1, k2, k3, k4, k5⟩, hb2⟩
    refine ⟨fun e he => ?_, by simp [k2], k3, ?_, fun hbd => ?_⟩
    · rcases List.mem_cons.1 he with rfl | he
      · exact h1.mono hb2
      · exact k1 e he
    · rw [List.countP_cons, Nat.add_mul]; omega
    · have := h4 hbd; have := k5 hbd; rw [List.length_cons, Nat.add_mul]; omega

omit [Arith] in
theorem countP_ofFn {E : Type} {n : ℕ} (v : Fin n → E) (q : E → Bool) :
    (List.ofFn v).countP q = (Finset.univ.filter fun i => q (v i) = true).card := by
  induction n with
  | zero => simp
  | succ n ih =>
    rw [List.ofFn_succ, List.countP_cons, ih, Fin.card_filter_univ_succ]
    split <;> rfl

theorem Yields.enable {n : ℕ} {l : List (Ind D)} : Yields C (enable n l) fun l' =>
    l'.length = l.length ∧ (∀ e ∈ l', ∃ e' ∈ l, e.x = e'.x ∧ e.f = e'.f) ∧ min n l.length ≤ l'.countP (·.ext.enable) := by
  unfold HDE.enable
  refine .bind' Yields.sortIdx fun o ho => .pure' ⟨by simp, fun e he => ?_, ?_⟩
  · obtain ⟨i, rfl⟩ := List.mem_ofFn.1 he
    exact ⟨_, List.get_mem l i, rfl, rfl⟩
  · rw [countP_ofFn]
    let f : Fin (min n l.length) → Fin l.length := fun k => o ⟨k, by have := k.2; omega⟩
    have hf : Function.Injective f := fun k l h => by
      have := ho.1.1 h
      exact Fin.ext (by simpa using this)
    calc min n l.length = (Finset.univ.image f).card := by rw [Finset.card_image_of_injective _ hf]; simp
      _ ≤ _ := Finset.card_le_card fun i hi => by
        obtain ⟨k, -, rfl⟩ := Finset.mem_image.1 hi
        have := k.2
        simp only [Finset.mem_filter, Finset.mem_univ, true_and, Bool.or_eq_true, List.any_eq_true, decide_eq_true_eq]
        exact .inr ⟨⟨k, by omega⟩, List.mem_finRange _, by simp only; omega, rfl⟩

omit [Arith] in
theorem survivors_enabled {l : List (Ind D)} {new : Fin l.length → Ind D} (h : ∀ i, (new i).ext.enable = true) :
    l.countP (·.ext.enable) ≤ (DE.survivors l new).countP (·.ext.enable) := by
  conv_lhs => rw [← List.ofFn_get l]
  rw [DE.survivors, countP_ofFn, countP_ofFn]
  refine Finset.card_le_card fun i hi => ?_
  simp only [Finset.mem_filter, Finset.mem_univ, true_and] at hi ⊢
  split
  · exact h i
  · exact hi

/-- What the evolution step has to do in addition to `DE.EvolveOK`: new individuals are enabled. -/
def Enabled (ev : DE.Evolve D (Mark D)) : Prop :=
  ∀ (C : Ctx (Vec D)) (g : Ghost (Vec D)) (l : List (Ind D)) (xb : Vec D), (ev l xb).wp C (fun new _ => ∀ i, (new i).ext.enable = true) g

theorem enabled_evolve (opt : OptType) {strat : DE.Strategy D} (hs : DE.QuietStrategy strat) (f cr : Fl) :
    Enabled (DE.evolve opt (fresh B) strat f cr) := fun C g l xb => by
  refine MTS.wp_then (wp_tabM (fun _ _ => True) (fun _ (e : Ind D) => e.ext.enable = true) trivial fun i g _ => ?_) fun _ _ h => h.2
  simp only [Prog.wp_bind']
  exact (hs C _ _ _ _ _).wp fun x _ => DE.wp_newInd fun y v _ hv => ⟨trivial, rfl⟩

theorem enabled_evolveMulti (opt : OptType) {strats : List (DE.Strategy D)} (hs : ∀ s ∈ strats, DE.QuietStrategy s) (f cr : Fl) :
    Enabled (DE.evolveMulti opt (fresh B) strats f cr) := fun C g l xb => by
  refine MTS.wp_then (wp_tabM (fun _ _ => True) (fun _ (e : Ind D) => e.ext.enable = true) trivial fun i g _ => ?_) fun _ _ h => h.2
  simp only [Prog.wp_bind']
  refine MTS.wp_then (wp_mapM' (fun _ _ => True) (fun _ (e : Ind D) => e.ext.enable = true) trivial fun st hst k g _ => ?_) fun c g h => ?_
  · simp only [Prog.wp_bind']
    exact (hs st hst C _ _ _ _ _).wp fun x _ => DE.wp_newInd fun y v _ hv => ⟨trivial, rfl⟩
  · refine wp_argminRec fun a ha _ => ⟨trivial, ?_⟩
    obtain ⟨i, hi⟩ := List.mem_iff_get.1 ha
    have := (List.forall₂_iff_get.1 h.2).2 i (by rw [(List.forall₂_iff_get.1 h.2).1]; exact i.2) i.2
    rw [← hi]; exact this

theorem wp_iter (hr : Reg B p C) (ho : Free p C) {ev : DE.Evolve D (Mark D)} {m : ℕ} (hev : DE.EvolveOK ev m) (hen : Enabled ev)
    {red : List (Ind D) → Prog (Vec D) (List (Ind D))} {R : List (Ind D) → List (Ind D) → Prop}
    (hred : ∀ l, Yields C (red l) fun l' => (∀ e ∈ l', e ∈ l) ∧ l'.length ≤ l.length ∧ R l l')
    {l : List (Ind D)} {xb : Vec D} {fxb : Fl} (hl : DE.PopOK C l g.b) (hI : Inc C xb fxb g) :
    (iter B p ev red l xb fxb).wp C (fun r g' => DE.PopOK C r.1 g'.b ∧ Inc C r.2.1 r.2.2 g' ∧
      (∃ arr l', R arr l' ∧ arr.length = l.length ∧ l'.length = r.1.length ∧ l.countP (·.ext.enable) ≤ arr.countP (·.ext.enable) ∧
        g.c + l.length * m + l'.countP (·.ext.enable) * (p.calls * p.least D) ≤ g'.c) ∧
      min p.enabled r.1.length ≤ r.1.countP (·.ext.enable) ∧
      (p.bounded = true → g'.c ≤ g.c + (l.length * m + l.length * (p.calls * (4 * D))))) g := by
  simp only [iter, Prog.wp_bind']
  refine Prog.wp_mono (fun new g1 h1 => ?_) (Prog.wp_and (Prog.wp_below (hev C (.inl rfl) g _ l xb hI.cov)) (hen C g l xb))
  obtain ⟨⟨⟨hc1, hf1, hn1⟩, hb1⟩, hen1⟩ := h1
  have hsel := survivors_enabled hen1
  refine DE.wp_select' (hl.mono hb1) hf1 (hI.toFit.mono hb1) hc1 fun r hp hi => ?_
  refine (hred _).wp fun l' hl' => ?_
  refine MTS.wp_then (Prog.wp_below (wp_turns hr ho (fun e he => hp e (hl'.1 e he)) hi)) ?_
  rintro t g2 ⟨⟨k1, k2, k3, k4, k5⟩, hb2⟩
  refine Yields.enable.wp fun l2 h2 => ?_
  have hp2 : DE.PopOK C l2 g2.b := fun e he => by
    obtain ⟨e', he', h1, h2⟩ := h2.2.1 e he
    rw [h1, h2]; exact k1 e' he'
  have hlen : (DE.survivors l new).length = l.length := by simp [DE.survivors]
  refine DE.wp_best hp2 k3.toFit (k3.cov.mono fun u hu => .inl hu) fun r hi =>
    ⟨hp2, hi, ⟨_, l', hl'.2.2, hlen, by rw [h2.1, k2], hsel, by omega⟩, by rw [h2.1]; exact h2.2.2, fun hbd => ?_⟩
  have e1 := k5 hbd
  have e2 : l'.length * (p.calls * (4 * D)) ≤ l.length * (p.calls * (4 * D)) := Nat.mul_le_mul_right _ (hlen ▸ hl'.2.1)
  omega

/-- Numbers of evaluations: `m` per individual for the new individuals, and the local searches. -/
def cost (D N m : ℕ) (p : MTS.Par) : Cost :=
  ⟨N, N * m + min p.enabled N * (p.calls * p.least D), if p.bounded then some (N * m + N * (p.calls * (4 * D))) else none⟩

/-- The same for a population that may shrink to two individuals. -/
def costDyn (D N m : ℕ) (p : MTS.Par) : Cost :=
  ⟨N, min N 2 * m, if p.bounded then some (N * m + N * (p.calls * (4 * D))) else none⟩

theorem enabled_init {opt : OptType} {N : ℕ} : (DE.init opt B N (fresh B)).wp C (fun l _ => l.countP (·.ext.enable) = N) g := by
  simp only [DE.init, Prog.wp_bind']
  refine MTS.wp_then (wp_tabM (fun _ _ => True) (fun _ (e : Ind D) => e.ext.enable = true) trivial fun i g _ =>
    DE.wp_randInd fun y v _ hv => ⟨trivial, rfl⟩) fun r g h => ?_
  change List.countP _ (List.ofFn r) = N
  rw [countP_ofFn]
  simp [h.2]

theorem verified' (opt : OptType) (B : Box D) (N : ℕ) (p : MTS.Par) {ev : DE.Evolve D (Mark D)} {m : ℕ} (hev : DE.EvolveOK ev m) (hen : Enabled ev) :
    VerifiedIf (Reg B p) (mk opt B N p ev pure) (fun _ => False) true p.bounded (cost D N m p) := by
  refine ⟨fun C (l : List (Ind D)) b => DE.PopOK C l b ∧ l.length = N ∧ min p.enabled N ≤ l.countP (·.ext.enable), fun C hr _ hent ho =>
    AlgOK.toW ⟨fun s b h => forall₂_map h.1, fun g hg => ?_, ?_⟩⟩
  · refine Prog.wp_mono (fun (l : List (Ind D)) g' h => ?_) (Prog.wp_and enabled_init (DE.wp_init (Q := fun l g' => DE.PopOK C l g'.b ∧ l.length = N ∧
      Cov C (· ∈ l.map (·.f)) g' ∧ g'.c = g.c + N) hg fun l g' h1 h2 h3 h4 => ⟨h1, h2, h3, h4⟩))
    obtain ⟨h0, h1, h2, h3, h4⟩ := h
    exact ⟨⟨h1, h2, by rw [h0]; omega⟩, h3, h4⟩
  · intro s xb fxb g hI hF hc
    refine Prog.wp_mono (fun r g' h => ?_) (wp_iter hr ((Bool.eq_false_or_eq_true p.bounded).imp id ho) hev hen (R := fun l l' => l' = l)
      (fun l => .pure' ⟨fun _ h => h, le_rfl, rfl⟩) hI.1 ⟨hF, hc⟩)
    obtain ⟨h1, h2, ⟨arr, l', rfl, h3, h4, h5, h6⟩, h7, h8⟩ := h
    have hlen : List.length s = N := hI.2.1
    rw [hlen] at h3 h6 h8
    have e0 : List.length r.1 = N := by omega
    refine ⟨⟨h1, e0, by rw [← e0]; exact h7⟩, h2.fit, h2.eq, ?_, fun h hh => ?_⟩
    · have e := Nat.mul_le_mul_right (p.calls * p.least D) (hI.2.2.trans h5)
      simp only [cost]; omega
    · simp only [cost] at hh
      split at hh
      · cases hh; exact h8 ‹_›
      · cases hh

theorem verifiedDyn' (opt : OptType) (B : Box D) (N : ℕ) (p : MTS.Par) {ev : DE.Evolve D (Mark D)} {m : ℕ} (hev : DE.EvolveOK ev m) (hen : Enabled ev)
    (pMax rp : ℕ) :
    VerifiedIf (Reg B p) (mk opt B N p ev (DE.reduce pMax rp)) (fun _ => False) true p.bounded (costDyn D N m p) := by
  refine ⟨fun C (l : List (Ind D)) b => DE.PopOK C l b ∧ l.length ≤ N ∧ min N 2 ≤ l.length, fun C hr _ hent ho =>
    AlgOK.toW ⟨fun s b h => forall₂_map h.1, fun g hg => ?_, ?_⟩⟩
  · exact DE.wp_init hg fun l g' h1 h2 h3 h4 => ⟨⟨h1, by omega, by omega⟩, h3, h4⟩
  · intro s xb fxb g hI hF hc
    refine Prog.wp_mono (fun r g' h => ?_) (wp_iter hr ((Bool.eq_false_or_eq_true p.bounded).imp id ho) hev hen
      (R := fun l l' => l'.length ≤ l.length ∧ (2 ≤ l.length → 2 ≤ l'.length) ∧ (l.length < 2 → l'.length = l.length))
      (fun l => ?_) hI.1 ⟨hF, hc⟩)
    · obtain ⟨h1, h2, ⟨arr, l', h0, h3, h4, h5, h6⟩, h7, h8⟩ := h
      rw [h3, h4] at h0
      have e1 : min N 2 * m ≤ List.length s * m := Nat.mul_le_mul_right _ hI.2.2
      have e2 : List.length s * m ≤ N * m := Nat.mul_le_mul_right _ hI.2.1
      have e3 : List.length s * (p.calls * (4 * D)) ≤ N * (p.calls * (4 * D)) := Nat.mul_le_mul_right _ hI.2.1
      refine ⟨⟨h1, by have := hI.2.1; omega, by have := hI.2.2; omega⟩, h2.fit, h2.eq, ?_, fun h hh => ?_⟩
      · simp only [costDyn]
        have : g.c + List.length s * m ≤ g'.c := le_trans (Nat.le_add_right _ _) h6
        omega
      · simp only [costDyn] at hh
        split at hh
        · cases hh
          refine (h8 ‹_›).trans ?_
          exact Nat.add_le_add_left (Nat.add_le_add e2 e3) _
        · cases hh
    · unfold DE.reduce
      refine .bindT Yields.look fun v => .ite (fun _ => .throw nofun) fun _ => .ite (fun h => .pure' ?_)
        fun _ => .pure' ⟨fun _ h => h, le_rfl, le_rfl, id, fun _ => rfl⟩
      refine ⟨fun e he => DE.halve_mem he, ?_⟩; simp only [DE.halve, List.length_ofFn]; omega

/-- The obligations of DifferentialEvolutionMTS. -/
theorem verified (opt : OptType) (B : Box D) (N : ℕ) (p : MTS.Par) {strat : DE.Strategy D} (hs : DE.QuietStrategy strat) (f cr : Fl) :
    VerifiedIf (Reg B p) (alg opt B N p strat f cr) (fun _ => False) true p.bounded (cost D N 1 p) :=
  verified' opt B N p (DE.evolveOK opt _ hs f cr) (enabled_evolve opt hs f cr)

theorem verifiedMulti (opt : OptType) (B : Box D) (N : ℕ) (p : MTS.Par) {strats : List (DE.Strategy D)} (hs : ∀ s ∈ strats, DE.QuietStrategy s)
    (f cr : Fl) : VerifiedIf (Reg B p) (algMulti opt B N p strats f cr) (fun _ => False) true p.bounded (cost D N strats.length p) :=
  verified' opt B N p (DE.evolveMultiOK opt _ hs f cr) (enabled_evolveMulti opt hs f cr)

theorem verifiedDyn (opt : OptType) (B : Box D) (N : ℕ) (p : MTS.Par) {strat : DE.Strategy D} (hs : DE.QuietStrategy strat) (f cr : Fl)
    (pMax rp : ℕ) : VerifiedIf (Reg B p) (algDyn opt B N p strat f cr pMax rp) (fun _ => False) true p.bounded (costDyn D N 1 p) :=
  verifiedDyn' opt B N p (DE.evolveOK opt _ hs f cr) (enabled_evolve opt hs f cr) pMax rp

theorem verifiedDynMulti (opt : OptType) (B : Box D) (N : ℕ) (p : MTS.Par) {strats : List (DE.Strategy D)} (hs : ∀ s ∈ strats, DE.QuietStrategy s)
    (f cr : Fl) (pMax rp : ℕ) :
    VerifiedIf (Reg B p) (algDynMulti opt B N p strats f cr pMax rp) (fun _ => False) true p.bounded (costDyn D N strats.length p) :=
  verifiedDyn' opt B N p (DE.evolveMultiOK opt _ hs f cr) (enabled_evolveMulti opt hs f cr) pMax rp

/-! ### C76: the solution returned -/

theorem metBy_reg {env : Env (Vec D)} (hn : NoNaN env) (hk : MTS.Keeps B env) (hp : ∀ k ∈ p.ls, k.tidy = true) (trk : Prop) :
    MetBy (Reg B p) env trk B.NotOut := fun C hF ht hG hR hU => .inr ⟨MTS.metBy_laws hn hk trk C hF ht hG hR hU, hp⟩

/-- C76, what remains true: with the searches `mts_ls1`, `mts_ls2` and `mts_ls3v1` the fitness returned is that of the solution
returned, if no objective value is NaN and repair gives points within the bounds and leaves coordinates within the bounds alone. -/
theorem C76_solution_partial (opt : OptType) (B : Box D) (N : ℕ) (p : MTS.Par) (hp : ∀ k ∈ p.ls, k.tidy = true) {strat : DE.Strategy D}
    (hs : DE.QuietStrategy strat) (sf cr : Fl) (env : Env (Vec D)) (hn : NoNaN env) (hr : ∀ rng k x, B.NotOut (env.repairFn rng k x))
    (hk : MTS.Keeps B env) (main : Bool) (ncb fuel : ℕ) (out : RunOut (Vec D)) (x : Vec D) (f : Fl)
    (hrun : ((alg opt B N p strat sf cr).exec env main ncb fuel).1 = .ok out) (hres : out.result = some (x, f)) :
    (x, .ok f) ∈ ((alg opt B N p strat sf cr).exec env main ncb fuel).2.calls ∨ f = env.opt.mul .pinf :=
  C27_solution_fitness (verified opt B N p hs sf cr) env (metBy_reg hn hk hp _) main ncb fuel out x f hrun hres nofun hr

/-- Default searches; one test, one search, one enabled individual. -/
def Ex.par : MTS.Par := ⟨1, 1, 0, 1, .fin 10, .fin 1, [.ls1, .ls2, .ls3]⟩

omit [Arith] in
/-- **C76 is false** of DifferentialEvolutionMTS with its default searches: after one iteration on the sphere function (no NaN, repair by
clipping) it returns a solution that is not the one with the fitness returned. -/
theorem C76_hde_false : (@alg NiaPy.Ex.arith 2 .minimization (NiaPy.Ex.box 2) 2 Ex.par (@DE.crossRand1 NiaPy.Ex.arith 2) (.fin (1 / 2)) (.fin (1 / 2))).ReturnsWrong
    (NiaPy.Ex.env2 1) :=
  .of (fuel := 9) (by decide +kernel)

/-- The hypotheses of `C76_solution_partial` are satisfiable: with `mts_ls1` and `mts_ls2` on the sphere function, two iterations,
evaluations by the local searches among them. -/
example : letI := NiaPy.Ex.arith
    (∀ k ∈ (MTS.Ex.par [.ls1, .ls2]).ls, k.tidy = true) ∧ NoNaN (NiaPy.Ex.env2 (D := 1)) ∧
    (∀ rng k x, (NiaPy.Ex.box 1).NotOut ((NiaPy.Ex.env2 (D := 1)).repairFn rng k x)) ∧ MTS.Keeps (NiaPy.Ex.box 1) NiaPy.Ex.env2 ∧
    (match (alg .minimization (NiaPy.Ex.box 1) 3 (MTS.Ex.par [.ls1, .ls2]) DE.crossRand1 (.fin (1 / 2)) (.fin (1 / 2))).exec NiaPy.Ex.env2 true 1 5 with
      | (.ok ⟨some (_, f), _⟩, w) => decide (f ≠ .pinf ∧ w.st.iters = 2 ∧ 9 < w.calls.length)
      | _ => false) = true :=
  letI := NiaPy.Ex.arith
  ⟨by decide, NiaPy.Ex.env2_noNaN _ _, fun _ _ _ => MTS.Ex.env2_inside _ _ _ _ _, MTS.Ex.env2_keeps _ _, by decide +kernel⟩

/-! ### C77: the grades -/

/-- The same but for the grade. -/
def Same (s t : MTS.LS D) : Prop := ∃ c, t = { s with grade := c }

omit [Arith] in
theorem Same.rfl' (s : MTS.LS D) : Same s s := ⟨s.grade, rfl⟩

variable {s t : MTS.LS D} {env : Env (Vec D)} {b1 b2 c1 c2 : Fl}

theorem Same.record (h : Same s t) {y : Vec D} {f : Fl} : Same (s.record y f b1) (t.record y f c1) := by
  obtain ⟨c, rfl⟩ := h
  unfold MTS.LS.record
  dsimp only
  split <;> exact ⟨_, rfl⟩

theorem Same.accept (h : Same s t) {y : Vec D} {f : Fl} : Same (s.accept y f b2) (t.accept y f c2) := by
  obtain ⟨c, rfl⟩ := h; exact ⟨_, rfl⟩

omit [Arith] in
theorem Same.withX (h : Same s t) {y : Vec D} : Same { s with x := y } { t with x := y } := by
  obtain ⟨c, rfl⟩ := h; exact ⟨_, rfl⟩

theorem Same.start (h : Same s t) : Same (s.start B) (t.start B) := by
  obtain ⟨c, rfl⟩ := h; exact ⟨_, rfl⟩

theorem Same.record3 (h : Same s t) {y : Vec D} {f : Fl} : Same (s.record3 y f b1) (t.record3 y f c1) := by
  have hr := h.record (b1 := b1) (c1 := c1) (y := y) (f := f)
  obtain ⟨c, rfl⟩ := h
  unfold MTS.LS.record3
  dsimp only
  split
  · obtain ⟨c', hr⟩ := hr
    rw [hr]; exact ⟨_, rfl⟩
  · exact ⟨_, rfl⟩

theorem Same.reward (h : Same s t) {d : Fl} : Same (s.reward d b2) (t.reward d c2) := by
  obtain ⟨c, rfl⟩ := h
  unfold MTS.LS.reward
  split <;> exact ⟨_, rfl⟩

theorem alike_ls1Second (h : Same s t) {i : Fin D} {o : Fl} {y : Vec D} :
    Alike env Same (MTS.ls1Second b1 b2 i o y s) (MTS.ls1Second c1 c2 i o y t) := by
  unfold MTS.ls1Second
  have e : t.sr = s.sr := by obtain ⟨c, rfl⟩ := h; rfl
  rw [e]
  refine .step fun y => .step fun f => ?_
  have hr := h.record (b1 := b1) (c1 := c1) (y := y) (f := f)
  have e : (t.record y f c1).fx = (s.record y f b1).fx := by obtain ⟨c, hr⟩ := hr; rw [hr]
  dsimp only
  rw [e]
  exact .ite (fun _ => .pure (by obtain ⟨c, hc⟩ := hr; exact ⟨c, by rw [hc]⟩)) fun _ => .pure hr.accept

theorem alike_ls1 (h : Same s t) : Alike env Same (MTS.ls1 B b1 b2 s) (MTS.ls1 B c1 c2 t) := by
  refine .forFin h.start fun i s t h => ?_
  unfold MTS.ls1Step
  have e : t.sr = s.sr ∧ t.x = s.x ∧ t.fx = s.fx := by obtain ⟨c, rfl⟩ := h; exact ⟨rfl, rfl, rfl⟩
  rw [e.1, e.2.1, e.2.2]
  refine .step fun y => .step fun f => ?_
  have hr := h.record (b1 := b1) (c1 := c1) (y := y) (f := f)
  exact .ite (fun _ => .pure hr.withX) fun _ => .ite (fun _ => alike_ls1Second hr) fun _ => .pure hr.accept

theorem alike_ls1v1 (h : Same s t) : Alike env Same (MTS.ls1v1 B b1 b2 s) (MTS.ls1v1 B c1 c2 t) := by
  refine .step fun d => .forFin h.start fun i s t h => ?_
  unfold MTS.ls1v1Step
  have e : t.sr = s.sr ∧ t.x = s.x ∧ t.fx = s.fx ∧ t.fxb = s.fxb := by obtain ⟨c, rfl⟩ := h; exact ⟨rfl, rfl, rfl, rfl⟩
  rw [e.1, e.2.1, e.2.2.1, e.2.2.2]
  refine .step fun y => .step fun f => .ite (fun _ => .pure h.record.withX) fun _ => .ite (fun _ => .pure (by obtain ⟨c, rfl⟩ := h; exact ⟨_, rfl⟩)) fun _ =>
    .ite (fun _ => ?_) fun _ => .pure h.accept
  unfold MTS.ls1v1Second
  rw [e.1, e.2.2.1, e.2.2.2]
  exact .step fun y => .step fun f => .ite (fun _ => .pure h.record.withX) fun _ => .ite (fun _ => .pure (by obtain ⟨c, rfl⟩ := h; exact ⟨_, rfl⟩)) fun _ => .pure h.accept

theorem alike_ls2 (h : Same s t) : Alike env Same (MTS.ls2 B b1 b2 s) (MTS.ls2 B c1 c2 t) := by
  refine .forFin h.start fun i s t h => ?_
  unfold MTS.ls2Step
  have e : t.sr = s.sr ∧ t.x = s.x ∧ t.fx = s.fx ∧ t.fxb = s.fxb := by obtain ⟨c, rfl⟩ := h; exact ⟨rfl, rfl, rfl, rfl⟩
  rw [e.1, e.2.1, e.2.2.1, e.2.2.2]
  refine .step fun u => .step fun r => .step fun y => .step fun f => .ite (fun _ => .pure h.record) fun _ => .ite (fun _ => .pure h) fun _ =>
    .ite (fun _ => ?_) fun _ => .pure h.accept
  unfold MTS.ls2Second
  rw [e.1, e.2.1, e.2.2.1, e.2.2.2]
  exact .step fun y => .step fun f => .ite (fun _ => .pure h.record) fun _ => .ite (fun _ => .pure h.accept) fun _ => .pure h

theorem Same.take3 (h : Same s t) {y : Vec D} {f : Fl} {m : Bool} :
    Same (MTS.ls3Take b1 b2 y f s m).1 (MTS.ls3Take c1 c2 y f t m).1 ∧ (MTS.ls3Take b1 b2 y f s m).2 = (MTS.ls3Take c1 c2 y f t m).2 := by
  have hr := h.record (b1 := b1) (c1 := c1) (y := y) (f := f)
  obtain ⟨c, rfl⟩ := h
  unfold MTS.ls3Take
  dsimp only
  split
  · refine ⟨?_, rfl⟩
    split
    · obtain ⟨c', hr⟩ := hr
      rw [hr]; exact ⟨_, rfl⟩
    · exact ⟨_, rfl⟩
  · exact ⟨⟨_, rfl⟩, rfl⟩

theorem alike_ls3 (h : Same s t) : Alike env Same (MTS.ls3 b1 b2 s) (MTS.ls3 c1 c2 t) := by
  have e : t.x = s.x := by obtain ⟨c, rfl⟩ := h; rfl
  unfold MTS.ls3
  rw [e]
  refine .bind' (R := fun a b => Same a.1 b.1 ∧ a.2 = b.2) (.forFin ⟨?_, rfl⟩ fun i a b h => ?_) fun a b h => ?_
  · obtain ⟨c, rfl⟩ := h; exact ⟨_, rfl⟩
  · obtain ⟨s, z, m⟩ := a
    obtain ⟨t, z', m'⟩ := b
    obtain ⟨h, e⟩ := h
    cases e
    dsimp only at h
    unfold MTS.ls3Step
    dsimp only
    refine .step fun y1 => .step fun y2 => .step fun y3 => .step fun f1 => .step fun f2 => .step fun f3 => ?_
    have h3 := ((h.record3 (b1 := b1) (c1 := c1) (y := y1) (f := f1)).record3 (b1 := b1) (c1 := c1) (y := y2) (f := f2)).record3 (b1 := b1) (c1 := c1) (y := y3) (f := f3)
    have e : (((t.record3 y1 f1 c1).record3 y2 f2 c1).record3 y3 f3 c1).fx = (((s.record3 y1 f1 b1).record3 y2 f2 b1).record3 y3 f3 b1).fx := by
      obtain ⟨c, hc⟩ := h3; rw [hc]
    rw [e]
    refine .step fun a => .step fun b => .step fun c => .step fun y => .step fun f => .pure ?_
    exact h3.reward.reward.reward.take3
  · obtain ⟨s, z, m⟩ := a
    obtain ⟨t, z', m'⟩ := b
    obtain ⟨h, e⟩ := h
    cases e
    refine .pure ?_
    dsimp only
    split
    · exact h.withX
    · exact h

theorem Same.take3v1 (h : Same s t) {new : List (Vec D × Fl)} : Same (MTS.ls3v1Take b1 b2 new s) (MTS.ls3v1Take c1 c2 new t) := by
  obtain ⟨c, rfl⟩ := h
  unfold MTS.ls3v1Take
  dsimp only
  cases MTS.pick (new.filter fun e => decide (e.2 < s.fxb)) with
  | some e => exact ⟨_, rfl⟩
  | none =>
    cases MTS.pick (new.filter fun e => decide (e.2 < s.fx)) with
    | some e => exact ⟨_, rfl⟩
    | none => exact ⟨_, rfl⟩

theorem alike_ls3v1 (h : Same s t) {fuel : ℕ} : Alike env Same (MTS.ls3v1 B fuel b1 b2 s) (MTS.ls3v1 B fuel c1 c2 t) := by
  unfold MTS.ls3v1
  have h0 : Same { s with grade := Fl.ofNat 0 } { t with grade := Fl.ofNat 0 } := by obtain ⟨c, rfl⟩ := h; exact ⟨_, rfl⟩
  revert h0
  generalize (fun j => (B.hi j - B.lo j) / Fl.ofNat 10) = disp
  generalize { s with grade := Fl.ofNat 0 } = s
  generalize { t with grade := Fl.ofNat 0 } = t
  intro h
  induction fuel generalizing disp s t with
  | zero =>
    unfold MTS.ls3v1Loop
    exact .ite (fun _ => .throw) fun _ => .pure h
  | succ fuel ih =>
    unfold MTS.ls3v1Loop
    have e : t.x = s.x := by obtain ⟨c, rfl⟩ := h; rfl
    rw [e]
    refine .ite (fun _ => .step fun rows => .step fun rows => .step fun fs => ?_) fun _ => .pure h
    have h' := h.take3v1 (b1 := b1) (b2 := b2) (c1 := c1) (c2 := c2) (new := List.ofFn fun i => (rows i, fs i))
    have e : (MTS.ls3v1Take c1 c2 (List.ofFn fun i => (rows i, fs i)) t).x = (MTS.ls3v1Take b1 b2 (List.ofFn fun i => (rows i, fs i)) s).x := by
      obtain ⟨c, hc⟩ := h'; rw [hc]
    dsimp only
    rw [e]
    exact ih _ _ _ h'

theorem alike_run (h : Same s t) (k : MTS.Search) : Alike env Same (k.run B b1 b2 s) (k.run B c1 c2 t) := by
  cases k with
  | ls1 => exact alike_ls1 h
  | ls1v1 => exact alike_ls1v1 h
  | ls2 => exact alike_ls2 h
  | ls3 => exact alike_ls3 h
  | ls3v1 fuel => exact alike_ls3v1 h

theorem alike_improve {p : MTS.Par} : Alike env Same (MTS.improve B { p with b1 := b1, b2 := b2 } s) (MTS.improve B { p with b1 := c1, b2 := c2 } s) := by
  unfold MTS.improve
  refine .step (p := MTS.grade B p s) fun r => ?_
  dsimp only
  split
  · exact .throw
  · refine .forFin (.rfl' _) fun i s t h => .bind' (alike_run h _) fun a b hab => .pure ?_
    obtain ⟨c, rfl⟩ := hab
    exact ⟨_, rfl⟩

theorem alike_turns {p : MTS.Par} (l : List (Ind D)) (xb : Vec D) (fxb : Fl) :
    Alike env Eq (turns B { p with b1 := b1, b2 := b2 } l xb fxb) (turns B { p with b1 := c1, b2 := c2 } l xb fxb) := by
  induction l generalizing xb fxb with
  | nil => exact .pure rfl
  | cons e l ih =>
    unfold turns
    refine .bind' (R := Eq) ?_ fun a b hab => ?_
    · unfold turn
      refine .ite (fun _ => .bind' alike_improve fun a b hab => .pure ?_) fun _ => .pure rfl
      obtain ⟨c, rfl⟩ := hab
      rfl
    · subst hab
      exact .bind' (ih _ _) fun r r' h => by subst h; exact .pure rfl

/-- **C77.** The bonuses have no effect: runs of DifferentialEvolutionMTS and its variants with different values of `bonus1` and `bonus2`
are the same: result, evaluations and everything callbacks are shown. -/
theorem C77_bonus (opt : OptType) (B : Box D) (N : ℕ) (p : MTS.Par) (ev : DE.Evolve D (Mark D)) (red : List (Ind D) → Prog (Vec D) (List (Ind D)))
    (b1 b2 c1 c2 : Fl) (env : Env (Vec D)) (main : Bool) (ncb fuel : ℕ) :
    (mk opt B N { p with b1 := b1, b2 := b2 } ev red).exec env main ncb fuel = (mk opt B N { p with b1 := c1, b2 := c2 } ev red).exec env main ncb fuel := by
  refine Alg.exec_alike (A := mk opt B N { p with b1 := b1, b2 := b2 } ev red) (A' := mk opt B N { p with b1 := c1, b2 := c2 } ev red) Eq
    (fun s s' h => by cases h; rfl) (fun s s' h => by cases h; rfl) (.refl _) (fun s s' xb fxb h => ?_) main ncb fuel
  cases h
  change Alike env _ (iter B { p with b1 := b1, b2 := b2 } ev red s xb fxb) (iter B { p with b1 := c1, b2 := c2 } ev red s xb fxb)
  unfold iter
  refine .step fun new => .step fun a => .step fun l => .bind' (alike_turns l _ _) fun r r' h => ?_
  subst h
  exact .step fun l => .step fun b => .pure ⟨rfl, rfl⟩

/-- The runs compared by `C77_bonus` are not empty. -/
example : letI := NiaPy.Ex.arith
    (match (alg .minimization (NiaPy.Ex.box 1) 3 { MTS.Ex.par [.ls1, .ls2] with b1 := .fin 7 } DE.crossRand1 (.fin (1 / 2)) (.fin (1 / 2))).exec
        NiaPy.Ex.env2 true 1 5 with
      | (.ok ⟨some (_, f), _⟩, w) => decide (f ≠ .pinf ∧ w.st.iters = 2 ∧ 9 < w.calls.length ∧ w.events.length = 6)
      | _ => false) = true := by
  decide +kernel

end NiaPy.HDE
