import Verif.Init
import Verif.CountProps
import Verif.Integers

/-!
# Tools for the proofs about the single algorithms
-/

namespace NiaPy
variable {X α β : Type} {C : Ctx X} {g : Ghost X}

/-! ### Programs that evaluate nothing -/

/-- `p` evaluates nothing, and what it returns satisfies `P`. -/
structure Yields (C : Ctx X) (p : Prog X α) (P : α → Prop) : Prop where
  out : ∀ g, p.wp C (fun a g' => P a ∧ g' = g) g

/-- `p` evaluates nothing. -/
abbrev Quiet (C : Ctx X) (p : Prog X α) : Prop := Yields C p fun _ => True

theorem Yields.wp {p : Prog X α} {P : α → Prop} (h : Yields C p P) {Q : α → Ghost X → Prop} (hQ : ∀ a, P a → Q a g) :
    p.wp C Q g :=
  Prog.wp_mono (fun a g' hg => by obtain ⟨h, rfl⟩ := hg; exact hQ a h) (h.out g)

namespace Yields

theorem mono {p : Prog X α} {P P' : α → Prop} (h : Yields C p P) (hP : ∀ a, P a → P' a) : Yields C p P' := ⟨fun _ =>
  h.wp fun a ha => ⟨hP a ha, rfl⟩⟩

theorem quiet {p : Prog X α} {P : α → Prop} (h : Yields C p P) : Quiet C p := h.mono fun _ _ => trivial

theorem pure {a : α} {P : α → Prop} (h : P a) : Yields C (.pure a) P := ⟨fun _ => ⟨h, rfl⟩⟩
theorem pure' {a : α} {P : α → Prop} (h : P a) : Yields C (Pure.pure a) P := ⟨fun _ => ⟨h, rfl⟩⟩

theorem throw {e : PyErr} {P : α → Prop} (h : e = .outOfFuel → C.oof) : Yields C (.throw e) P := ⟨fun _ => h⟩

theorem bind {p : Prog X α} {f : α → Prog X β} {P : α → Prop} {R : β → Prop} (hp : Yields C p P)
    (hf : ∀ a, P a → Yields C (f a) R) : Yields C (p.bind f) R := ⟨fun g => by
  rw [Prog.wp_bind]
  exact hp.wp fun a ha => (hf a ha).out g⟩

theorem bind' {p : Prog X α} {f : α → Prog X β} {P : α → Prop} {R : β → Prop} (hp : Yields C p P)
    (hf : ∀ a, P a → Yields C (f a) R) : Yields C (p >>= f) R := hp.bind hf

/-- Sequence, forgetting what the first part returned. -/
theorem bindT {p : Prog X α} {f : α → Prog X β} {R : β → Prop} (hp : Quiet C p)
    (hf : ∀ a, Yields C (f a) R) : Yields C (p >>= f) R := hp.bind' fun a _ => hf a

theorem ite {c : Prop} [Decidable c] {p q : Prog X α} {P : α → Prop} (hp : c → Yields C p P) (hq : ¬ c → Yields C q P) :
    Yields C (if c then p else q) P := by
  split
  · exact hp ‹_›
  · exact hq ‹_›

theorem rand : Yields C (Prog.rand : Prog X Fl) fun r => Fl.fin 0 ≤ r ∧ r < Fl.fin 1 := ⟨fun g => by
  rw [Prog.wp_rand]; exact fun r h1 h2 => ⟨⟨h1, Fl.lt_one h2⟩, rfl⟩⟩
/-- As `rand`, with the sharper bound. -/
theorem randLe : Yields C (Prog.rand : Prog X Fl) fun r => Fl.fin 0 ≤ r ∧ r ≤ Fl.belowOne := ⟨fun g => by
  rw [Prog.wp_rand]; exact fun r h1 h2 => ⟨⟨h1, h2⟩, rfl⟩⟩
theorem unif {lo hi : Fl} : Yields C (Prog.unif lo hi : Prog X Fl) fun r => lo ≤ hi → lo ≤ r ∧ r ≤ hi := ⟨fun g => by
  rw [Prog.wp_unif]; exact fun r h1 => ⟨h1, rfl⟩⟩
theorem norm {a b : Fl} : Quiet C (Prog.norm a b : Prog X Fl) := ⟨fun g => by
  rw [Prog.wp_norm]; exact fun r => ⟨trivial, rfl⟩⟩
theorem dist {d : Dist} {a b : Fl} : Quiet C (Prog.dist d a b : Prog X Fl) := ⟨fun g => by
  rw [Prog.wp_dist]; exact fun r => ⟨trivial, rfl⟩⟩
theorem int {n : ℕ} : Yields C (Prog.int n : Prog X ℕ) fun k => k < n := ⟨fun g => by
  rw [Prog.wp_int]; exact fun r h => ⟨h, rfl⟩⟩
theorem intFin {n : ℕ} : Quiet C (intFin n : Prog X (Fin n)) := ⟨fun g => by
  rw [wp_intFin]; exact fun i => ⟨trivial, rfl⟩⟩
theorem perm {n : ℕ} : Yields C (Prog.perm n : Prog X (List ℕ)) fun l => l.Perm (List.range n) := ⟨fun g => by
  rw [Prog.wp_perm]; exact fun r h => ⟨h, rfl⟩⟩
theorem argsort {fs : List Fl} : Yields C (Prog.argsort fs : Prog X (List ℕ)) fun l => l.Perm (List.range fs.length) ∧
    l.Pairwise fun i j => leNanLast (fs.getD i .nan) (fs.getD j .nan) := ⟨fun g => by
  rw [Prog.wp_argsort]; exact fun r h h' => ⟨⟨h, h'⟩, rfl⟩⟩
theorem look : Quiet C (Prog.look : Prog X TaskView) := ⟨fun g => by
  rw [Prog.wp_look]; exact fun r => ⟨trivial, rfl⟩⟩
theorem repair {x : X} : Yields C (Prog.repair x : Prog X X) C.G := ⟨fun g => by
  rw [Prog.wp_repair]; exact ⟨Or.inl rfl, fun y hy _ => ⟨hy, rfl⟩⟩⟩
theorem repairE {x : X} (h : C.ent) : Yields C (Prog.repair x false : Prog X X) C.G := ⟨fun g => by
  rw [Prog.wp_repair]; exact ⟨Or.inr h, fun y hy _ => ⟨hy, rfl⟩⟩⟩

theorem tabM {n : ℕ} {f : Fin n → Prog X α} {P : Fin n → α → Prop} (h : ∀ i, Yields C (f i) (P i)) :
    Yields C (NiaPy.tabM n f) fun r => ∀ i, P i (r i) := ⟨fun g =>
  wp_tabM_pure P (fun i => (h i).wp fun a ha => ⟨rfl, ha⟩) fun r hr => ⟨hr, rfl⟩⟩

theorem tabMT {n : ℕ} {f : Fin n → Prog X α} (h : ∀ i, Quiet C (f i)) : Quiet C (NiaPy.tabM n f) := (tabM h).quiet

theorem forFin {σ : Type} {n : ℕ} {f : Fin n → σ → Prog X σ} {s : σ} (J : σ → Prop) (h0 : J s)
    (hstep : ∀ i s, J s → Yields C (f i s) J) : Yields C (NiaPy.forFin n f s) J := ⟨fun g =>
  Prog.wp_mono (fun a g' h => ⟨h.1, h.2⟩) (wp_forFin' (fun s g' => J s ∧ g' = g) ⟨h0, rfl⟩
    fun i s g' h => by obtain ⟨h, rfl⟩ := h; exact (hstep i s h).wp fun a ha => ⟨ha, rfl⟩)⟩

theorem forList {σ γ : Type} {l : List γ} {f : γ → σ → Prog X σ} {s : σ} (J : σ → Prop) (h0 : J s)
    (hstep : ∀ i ∈ l, ∀ s, J s → Yields C (f i s) J) : Yields C (NiaPy.forList l f s) J := ⟨fun g =>
  Prog.wp_mono (fun a g' h => ⟨h.1, h.2⟩) (wp_forList (fun s g' => J s ∧ g' = g) ⟨h0, rfl⟩
    fun i hi s g' h => by obtain ⟨h, rfl⟩ := h; exact (hstep i hi s h).wp fun a ha => ⟨ha, rfl⟩)⟩

theorem mapM' {γ : Type} {l : List γ} {f : γ → Prog X α} {P : γ → α → Prop} (h : ∀ b ∈ l, Yields C (f b) (P b)) :
    Yields C (NiaPy.mapM' l f) fun r => List.Forall₂ P l r := ⟨fun g =>
  Prog.wp_mono (fun r g' h => ⟨h.2, h.1⟩) (wp_mapM' (fun _ g' => g' = g) P rfl
    fun b hb k g' hg => by subst hg; exact (h b hb).wp fun a ha => ⟨rfl, ha⟩)⟩

theorem mapMAll {γ : Type} {l : List γ} {f : γ → Prog X α} {P : α → Prop} (h : ∀ b ∈ l, Yields C (f b) P) :
    Yields C (NiaPy.mapM' l f) fun r => (∀ x ∈ r, P x) ∧ r.length = l.length :=
  (mapM' (P := fun _ => P) h).mono fun r hr => ⟨fun x hx => by
    clear h
    induction hr with
    | nil => simp at hx
    | cons h _ ih =>
      rcases List.mem_cons.1 hx with rfl | hx
      · exact h
      · exact ih hx, hr.length_eq.symm⟩

theorem mapMT {γ : Type} {l : List γ} {f : γ → Prog X α} (h : ∀ b, Quiet C (f b)) : Quiet C (NiaPy.mapM' l f) :=
  (mapM' fun b _ => h b).quiet

theorem randVec {D : ℕ} : Yields C (NiaPy.randVec D : Prog X (Vec D)) fun r => ∀ i, Fl.fin 0 ≤ r i ∧ r i < Fl.fin 1 :=
  tabM fun _ => rand
theorem randVecLe {D : ℕ} : Yields C (NiaPy.randVec D : Prog X (Vec D)) fun r => ∀ i, Fl.fin 0 ≤ r i ∧ r i ≤ Fl.belowOne :=
  tabM fun _ => randLe
theorem normVec {D : ℕ} {a b : Fl} : Quiet C (NiaPy.normVec D a b : Prog X (Vec D)) := tabMT fun _ => norm
theorem unifVec {D : ℕ} {lo hi : Vec D} : Yields C (NiaPy.unifVec lo hi : Prog X (Vec D))
    fun r => ∀ i, lo i ≤ hi i → lo i ≤ r i ∧ r i ≤ hi i := tabM fun _ => unif

end Yields

/-- `int(x)` for a float that is not negative (used as an index). -/
def floorNat : Fl → ℕ
  | .fin q => ⌊q⌋.toNat
  | _ => 0

/-- `int(n * r)` (the product is taken exactly). -/
def scaleNat (r : Fl) (n : ℕ) : ℕ :=
  match r with
  | .fin q => ⌊q * n⌋.toNat
  | _ => 0

/-- `int(n * self.random())` used as an index of an array of length `n` (the product is taken exactly). -/
def scaleIdx (n : ℕ) : Prog X (Fin n) := do
  let r ← Prog.rand
  if h : scaleNat r n < n then return ⟨scaleNat r n, h⟩ else .throw .indexError

theorem Yields.scaleIdx {n : ℕ} : Quiet C (NiaPy.scaleIdx n : Prog X (Fin n)) := by
  unfold NiaPy.scaleIdx
  refine Yields.bindT Yields.rand.quiet fun r => ?_
  split
  · exact .pure' trivial
  · exact .throw nofun

/-- A list of numbers used as an index array of length `n`; for a permutation of `range(n)` no entry is out of range. -/
def idxArr {n : ℕ} (l : List ℕ) (i : Fin n) : Fin n := if h : l.getD i 0 < n then ⟨l.getD i 0, h⟩ else i

theorem idxArr_perm {n : ℕ} {l : List ℕ} (h : l.Perm (List.range n)) :
    Function.Bijective (idxArr (n := n) l) ∧ ∀ i : Fin n, l[i.1]? = some (idxArr (n := n) l i).1 := by
  have hlen : l.length = n := by simpa using h.length_eq
  have hval : ∀ i : Fin n, l[i.1]? = some (idxArr (n := n) l i).1 := fun i => by
    have hi : i.1 < l.length := by omega
    have hm : l[i.1] < n := by
      have := h.mem_iff.1 (List.getElem_mem hi)
      simpa using this
    rw [List.getElem?_eq_getElem hi]
    simp [idxArr, hi, hm]
  have hinj : Function.Injective (idxArr (n := n) l) := fun i j hij => by
    have hi := hval i
    have hj := hval j
    rw [← hij] at hj
    rw [List.getElem?_eq_some_iff] at hi hj
    obtain ⟨h1, e1⟩ := hi
    obtain ⟨h2, e2⟩ := hj
    have hnd : l.Nodup := (List.Perm.nodup_iff h).2 List.nodup_range
    exact Fin.ext ((hnd.getElem_inj_iff (hi := h1) (hj := h2)).1 (e1.trans e2.symm))
  exact ⟨Finite.injective_iff_bijective.1 hinj, hval⟩

/-- `np.argsort(fs)` as an index array. -/
def sortIdx {n : ℕ} (fs : Fin n → Fl) : Prog X (Fin n → Fin n) := do
  let l ← Prog.argsort (List.ofFn fs)
  return idxArr l

theorem Yields.sortIdx {n : ℕ} {fs : Fin n → Fl} : Yields C (NiaPy.sortIdx fs : Prog X (Fin n → Fin n)) fun s =>
    Function.Bijective s ∧ ∀ i j, i < j → leNanLast (fs (s i)) (fs (s j)) := by
  refine Yields.bind' Yields.argsort fun l hl => .pure' ?_
  obtain ⟨hp, hs⟩ := hl
  rw [List.length_ofFn] at hp
  have hb := idxArr_perm hp
  refine ⟨hb.1, fun i j hij => ?_⟩
  have hi := hb.2 i
  have hj := hb.2 j
  rw [List.getElem?_eq_some_iff] at hi hj
  obtain ⟨h1, e1⟩ := hi
  obtain ⟨h2, e2⟩ := hj
  have := List.pairwise_iff_getElem.1 hs i.1 j.1 h1 h2 hij
  rw [e1, e2] at this
  simpa using this

/-- `rng.permutation(n)` as an index array. -/
def permIdx (n : ℕ) : Prog X (Fin n → Fin n) := do
  let l ← Prog.perm n
  return idxArr l

theorem Yields.permIdx {n : ℕ} : Yields C (NiaPy.permIdx n : Prog X (Fin n → Fin n)) Function.Bijective :=
  Yields.bind' Yields.perm fun _ hl => .pure' (idxArr_perm hl).1

/-- Further programs that evaluate nothing, to be extended with `macro_rules`. -/
syntax "yields_step" : tactic
macro_rules | `(tactic| yields_step) => `(tactic| fail "no rule")

/-- Proves that a program evaluates nothing, or that it yields a repaired point. -/
macro "yields" : tactic => `(tactic| repeat' first
  | exact Yields.rand.quiet
  | exact Yields.unif.quiet
  | exact Yields.norm
  | exact Yields.dist
  | exact Yields.int.quiet
  | exact Yields.intFin
  | exact Yields.scaleIdx
  | exact Yields.sortIdx.quiet
  | exact Yields.permIdx.quiet
  | exact Yields.perm.quiet
  | exact Yields.argsort.quiet
  | exact Yields.look
  | exact Yields.repair
  | exact Yields.repair.quiet
  | exact Yields.repairE (by assumption)
  | exact (Yields.repairE (by assumption)).quiet
  | exact Yields.randVec.quiet
  | exact Yields.normVec
  | exact Yields.unifVec.quiet
  | exact Yields.pure trivial
  | exact Yields.pure' trivial
  | exact Yields.throw nofun
  | yields_step
  | refine Yields.tabMT fun _ => ?_
  | refine Yields.mapMT fun _ => ?_
  | refine Yields.bindT ?_ fun _ => ?_
  | refine Yields.ite (fun _ => ?_) (fun _ => ?_)
  | refine Yields.forFin (fun _ => True) trivial fun _ _ _ => ?_
  | refine Yields.forList (fun _ => True) trivial fun _ _ _ _ => ?_)

/-! ### The incumbent -/

/-- `xb`, `fxb` is a good incumbent: `fxb` is the fitness of `xb` and the best value evaluated so far. -/
structure Inc (C : Ctx X) (xb : X) (fxb : Fl) (g : Ghost X) : Prop where
  fit : C.F xb fxb
  eq : C.NN → fxb = g.b

/-- `if v < fxb: xb, fxb = y, v` -/
def betterLt (y : X) (v : Fl) (xb : X) (fxb : Fl) : X × Fl := if v < fxb then (y, v) else (xb, fxb)

namespace Inc
variable {f0 fxb v : Fl} {xb y : X}

theorem ne_nan (h : Inc C xb fxb g) (hn : C.NN) : g.b ≠ .nan := h.eq hn ▸ hn _ _ h.fit

theorem toFit (h : Inc C xb fxb g) : C.Fit g.b xb fxb :=
  ⟨h.fit, fun hn hb => by rw [h.eq hn]; exact Fl.le_refl hb⟩

theorem cov (h : Inc C xb fxb g) : Cov C (· = fxb) g := fun hn =>
  Or.inr ⟨fxb, rfl, by rw [h.eq hn]; exact Fl.le_refl (h.ne_nan hn)⟩

/-- The incumbent is at least as good as any fitness value. -/
theorem le_fit (h : Inc C xb fxb g) (hf : C.Fit g.b y v) (hn : C.NN) : fxb ≤ v := by
  rw [h.eq hn]; exact hf.2 hn (h.ne_nan hn)

/-- Take over a point just evaluated. -/
theorem take (h : Inc C xb fxb g) (hv : C.F y v) (hle : v ≤ fxb) : Inc C y v (g.eval v) :=
  ⟨hv, fun hn => by
    rw [h.eq hn] at hle
    simp only [Ghost.eval]
    split
    · rfl
    · rename_i hlt; exact Fl.le_antisymm hle (Fl.le_of_not_lt (hn _ _ hv) (h.ne_nan hn) hlt)⟩

/-- Keep the incumbent after an evaluation that was not better. -/
theorem keep (h : Inc C xb fxb g) (hle : C.NN → fxb ≤ v) : Inc C xb fxb (g.eval v) :=
  ⟨h.fit, fun hn => by
    have hle := hle hn
    rw [h.eq hn] at hle ⊢
    simp only [Ghost.eval]
    rw [if_neg (Fl.not_lt_of_le hle)]⟩

theorem keep_of_not_lt (h : Inc C xb fxb g) (hv : C.F y v) (hn : ¬ v < fxb) : Inc C xb fxb (g.eval v) :=
  h.keep fun hnn => Fl.le_of_not_lt (hnn _ _ hv) (hnn _ _ h.fit) hn

theorem keep_of_not_le (h : Inc C xb fxb g) (hv : C.F y v) (hn : ¬ v ≤ fxb) : Inc C xb fxb (g.eval v) :=
  h.keep fun hnn => Fl.le_of_lt (Fl.lt_of_not_le (hnn _ _ hv) (hnn _ _ h.fit) hn)

/-- `if v < fxb: xb, fxb = y, v` -/
theorem lt (h : Inc C xb fxb g) (hv : C.F y v) :
    Inc C (if v < fxb then (y, v) else (xb, fxb)).1 (if v < fxb then (y, v) else (xb, fxb)).2 (g.eval v) := by
  by_cases hlt : v < fxb
  · simp only [if_pos hlt]; exact h.take hv (Fl.le_of_lt hlt)
  · simp only [if_neg hlt]; exact h.keep_of_not_lt hv hlt

/-- `if v <= fxb: xb, fxb = y, v` -/
theorem leq (h : Inc C xb fxb g) (hv : C.F y v) :
    Inc C (getBest1 y v xb fxb).1 (getBest1 y v xb fxb).2 (g.eval v) := by
  unfold getBest1
  by_cases hlt : v ≤ fxb
  · simp only [if_pos hlt]; exact h.take hv hlt
  · simp only [if_neg hlt]; exact h.keep_of_not_le hv hlt

theorem betterLt (h : Inc C xb fxb g) (hv : C.F y v) :
    Inc C (betterLt y v xb fxb).1 (betterLt y v xb fxb).2 (g.eval v) := h.lt hv

/-- Take over any fitness value that is not worse. -/
theorem replace (h : Inc C xb fxb g) (hv : C.Fit g.b y v) (hle : C.NN → v ≤ fxb) : Inc C y v g :=
  ⟨hv.1, fun hn => Fl.le_antisymm (h.eq hn ▸ hle hn) (hv.2 hn (h.ne_nan hn))⟩

end Inc

/-- A fitness value that covers everything is a good incumbent. -/
theorem Inc.of_cov {xb : X} {fxb : Fl} (h : C.Fit g.b xb fxb) (hc : Cov C (· = fxb) g) : Inc C xb fxb g :=
  ⟨h.1, fun hn => by
    rcases hc hn with h0 | ⟨u, rfl, hle⟩
    · exact Fl.le_antisymm (by rw [h0]; exact Fl.le_pinf (hn _ _ h.1)) (h.2 hn (by simp [h0]))
    · exact Fl.le_antisymm hle (h.2 hn (Fl.ne_nan_of_le_right hle))⟩

/-- From a population that covers everything evaluated, with `get_best` to the new incumbent. -/
theorem wp_getBest_inc {pop : List X} {fit : List Fl} {xb : X} {fxb : Fl} {Q : X × Fl → Ghost X → Prop}
    (h : List.Forall₂ (C.Fit g.b) pop fit) (hb : C.Fit g.b xb fxb) (hc : Cov C (fun u => u = fxb ∨ u ∈ fit) g)
    (hQ : ∀ r : X × Fl, Inc C r.1 r.2 g → Q r g) :
    (Prog.getBest pop fit xb fxb).wp C Q g := by
  simp only [Prog.getBest, Prog.wp_ofExcept]
  refine ⟨fun r hr => ?_, fun h => absurd h (getBest_no_oof _ _ _ _)⟩
  have hr1 : C.Fit g.b r.1 r.2 := getBest_aligned h (fun x hx => by cases hx; exact hb) hr
  refine hQ r (Inc.of_cov hr1 (hc.weaken fun hn u hu _ => ?_))
  have hmin := getBest_le (Forall₂.nn (fun x v hf => hn x v hf.1) h) (hn _ _ hb.1) hr
  rcases hu with rfl | hu
  · exact ⟨_, rfl, hmin.2⟩
  · exact ⟨_, rfl, hmin.1 u hu⟩

theorem mem_ofFn_iff {n : ℕ} {f : Fin n → Fl} {u : Fl} : u ∈ List.ofFn f ↔ ∃ i, u = f i := by
  rw [List.mem_ofFn]
  constructor
  · rintro ⟨i, rfl⟩; exact ⟨i, rfl⟩
  · rintro ⟨i, rfl⟩; exact ⟨i, rfl⟩

/-! ### Populations -/

theorem filterMap_range (l : List α) : (List.range l.length).filterMap (l[·]?) = l := by
  induction l with
  | nil => rfl
  | cons a l ih =>
    rw [List.length_cons, List.range_succ_eq_map, List.filterMap_cons]
    simp [List.filterMap_map, ih]

/-- `for i in range(a, b)` where `i` is an index of an array of length `n`; `IndexError` beyond its end. -/
def rangeLoop {σ : Type} (n a b : ℕ) (f : Fin n → σ → Prog X σ) (s : σ) : Prog X σ :=
  forFin (b - a) (fun i s => if h : a + i < n then f ⟨a + i, h⟩ s else .throw .indexError) s

theorem wp_rangeLoop {σ : Type} {n a b : ℕ} {f : Fin n → σ → Prog X σ} {s : σ} (J : ℕ → σ → Ghost X → Prop) (hab : a ≤ b)
    (h0 : J a s g) (hstep : ∀ i : Fin n, a ≤ i → i < b → ∀ s g, J i s g → (f i s).wp C (J (i + 1)) g) :
    (rangeLoop n a b f s).wp C (J b) g := by
  have := wp_forFin (C := C) (n := b - a) (f := fun i s => if h : a + i < n then f ⟨a + i, h⟩ s else .throw .indexError)
    (s := s) (g := g) (fun k => J (a + k)) h0 fun i s g hJ => by
      split
      · rename_i h
        exact hstep ⟨a + i, h⟩ (by simp) (by simp; omega) s g hJ
      · exact nofun
  rwa [Nat.add_sub_cancel' hab] at this

variable {N : ℕ} {pop : Fin N → X} {fit : Fin N → Fl} {y : X} {v : Fl}

theorem fit_eval (h : ∀ i, C.Fit g.b (pop i) (fit i)) (u : Fl) : ∀ i, C.Fit (g.eval u).b (pop i) (fit i) := fun i => (h i).eval u

theorem aligned_update {b : Fl} (h : ∀ i, C.Fit b (pop i) (fit i)) (i : Fin N) (hv : C.Fit b y v) :
    ∀ j, C.Fit b (Function.update pop i y j) (Function.update fit i v j) := fun j => by
  by_cases hj : j = i
  · subst hj; simpa using hv
  · simpa [hj] using h j

/-- `np.sum` of a vector. The order of summation is not modelled (NumPy sums pairwise). -/
def vsum [Arith] {n : ℕ} (f : Fin n → Fl) : Fl := (List.ofFn f).foldl (· + ·) 0

/-- `np.linalg.norm` of a vector (see `vsum` for the order of summation). -/
def norm2 [Arith] {n : ℕ} (f : Fin n → Fl) : Fl := Arith.fn .sqrt (vsum fun i => f i * f i)

/-- A float literal of the source. Python rounds it to the nearest double; here it is the decimal value itself. -/
def lit (n d : ℕ) : Fl := .fin (n / d)

/-- Sampling `lower + r * (upper - lower)` with `0 ≤ r ≤ 1 - 2 ^ -53` (what `random` returns) stays in the box. True of exact
arithmetic (`affineLaw_exact`) and of double precision (`Float64.affineLaw`). -/
def AffineLaw [Arith] {D : ℕ} (B : Box D) : Prop :=
  ∀ i r, Fl.fin 0 ≤ r → r ≤ Fl.belowOne → B.lo i ≤ B.lo i + r * (B.hi i - B.lo i) ∧ B.lo i + r * (B.hi i - B.lo i) ≤ B.hi i

/-- `x` is `lower + r * (upper - lower)` for some double `r` from `[0, 1)`. -/
def Sampled [Arith] {D : ℕ} (B : Box D) (x : Vec D) : Prop :=
  ∃ u : Vec D, (∀ j, Fl.fin 0 ≤ u j ∧ u j ≤ Fl.belowOne) ∧ x = fun j => B.lo j + u j * (B.hi j - B.lo j)

theorem Sampled.mem [Arith] {D : ℕ} {B : Box D} (haff : AffineLaw B) {x : Vec D} (h : Sampled B x) : B.Mem x := by
  obtain ⟨u, hu, rfl⟩ := h
  exact fun j => haff j (u j) (hu j).1 (hu j).2

/-- The points allowed may be mixed coordinate by coordinate with points of the box. -/
def MixOK {D : ℕ} (B : Box D) (C : Ctx (Vec D)) : Prop :=
  ∀ (m : Fin D → Prop) [DecidablePred m] (x y : Vec D), C.G x → B.Mem y → C.G fun j => if m j then y j else x j

theorem metBy_mixOK {D : ℕ} (B : Box D) (env : Env (Vec D)) (trk : Prop) : MetBy (MixOK B) env trk := by
  intro C _ _ hG _ _ m _ x y _ _
  rw [hG]; trivial

theorem metBy_mixOK_notOut {D : ℕ} (B : Box D) (env : Env (Vec D)) (trk : Prop) : MetBy (MixOK B) env trk B.NotOut := by
  intro C _ _ hG _ _ m _ x y hx hy
  rw [hG] at hx ⊢
  intro j
  simp only
  split
  · exact hy.notOut j
  · exact hx j

theorem affine_exact {lo hi : ℚ} (h : lo ≤ hi) {r : ℚ} (h0 : 0 ≤ r) (h1 : r ≤ 1) :
    lo ≤ lo + r * (hi - lo) ∧ lo + r * (hi - lo) ≤ hi := by
  constructor
  · nlinarith [mul_nonneg h0 (sub_nonneg.2 h)]
  · nlinarith [mul_nonneg (sub_nonneg.2 h1) (sub_nonneg.2 h)]

theorem affineLaw_exact (fn : Fn → Fl → Fl) {D : ℕ} (B : Box D) (hlo : ∀ i, ∃ q, B.lo i = .fin q) (hhi : ∀ i, ∃ q, B.hi i = .fin q) :
    @AffineLaw (exactArith fn) D B := by
  letI := exactArith fn
  intro i r h0 h1
  replace h1 := Fl.le_of_lt (Fl.lt_one h1)
  obtain ⟨l, hl⟩ := hlo i
  obtain ⟨u, hu⟩ := hhi i
  have hle := B.le i
  rw [hl, hu] at hle ⊢
  cases r with
  | fin q =>
    simp only [Fl.fin_le_fin] at h0 h1 hle
    have := affine_exact hle h0 h1
    change Fl.fin l ≤ Fl.fin _ ∧ Fl.fin _ ≤ Fl.fin u
    simp only [Fl.fin_le_fin]
    rw [sub_eq_add_neg] at this
    exact this
  | nan => simp at h0
  | pinf => simp at h1
  | ninf => simp at h0

end NiaPy
