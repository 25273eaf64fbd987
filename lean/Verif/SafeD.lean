import Verif.SafeC
import Verif.Algo.DE
import Verif.Algo.JDE
import Verif.Algo.PSO
import Verif.Algo.PSOVariants
import Verif.Algo.ES
import Verif.Algo.MKE

/-!
# Runs that do not raise: differential evolution, particle swarms, evolution strategies, monkey king evolution, anarchic society
-/

namespace NiaPy
variable [Arith] {D N : ℕ} {env : Env (Vec D)} {B : Box D}

omit [Arith] in
theorem Total.choiceOther {n k : ℕ} {ic : Fin n} (h : k < n) : Ends env (NiaPy.choiceOther n k ic : Prog (Vec D) (Fin k → Fin n)) := by
  unfold NiaPy.choiceOther
  refine .bind' Total.permIdx fun p hp => ?_
  rw [dif_pos]
  · exact .pure' trivial
  · have hnd : ((List.finRange n).map p).Nodup := (List.nodup_finRange n).map hp.1
    have := List.length_eq_length_filter_add (l := (List.finRange n).map p) (· ≠ ic)
    have h1 : (((List.finRange n).map p).filter fun x => !decide (x ≠ ic)).length ≤ 1 := by
      have h2 : (((List.finRange n).map p).filter fun x => !decide (x ≠ ic)).Nodup := hnd.filter _
      match hl : ((List.finRange n).map p).filter fun x => !decide (x ≠ ic) with
      | [] => simp
      | [a] => simp
      | a :: b :: l =>
        exfalso
        rw [hl] at h2
        have ha : a ∈ ((List.finRange n).map p).filter fun x => !decide (x ≠ ic) := by rw [hl]; simp
        have hb : b ∈ ((List.finRange n).map p).filter fun x => !decide (x ≠ ic) := by rw [hl]; simp
        have ha := (List.mem_filter.1 ha).2
        have hb := (List.mem_filter.1 hb).2
        simp at ha hb h2
        exact h2.1.1 (ha.trans hb.symm)
    simp only [List.length_map, List.length_finRange] at this
    omega

namespace DE
variable {E : Type}

omit [Arith] in
theorem ends_parents {n k : ℕ} (ic : Fin n) : Ends env (parents n k ic : Prog (Vec D) (Fin k → Fin n)) := by
  have := ic.2
  unfold parents
  exact .ite (fun h => .choiceOther h) fun _ => .ite (fun h => (Total.choiceFin h).ends) fun _ => .choiceRep (by omega)

/-- A mutation strategy that does not raise. -/
def Calls (env : Env (Vec D)) (strat : Strategy D) : Prop := ∀ {n : ℕ} (pop : Fin n → Vec D) i f cr xb, Ends env (strat pop i f cr xb)

/-- Each of the six strategies works for a population of any size, if solutions are not empty. -/
theorem calls_strategy (hD : 0 < D) (k : ℕ) (mutant : {n : ℕ} → (Fin n → Vec D) → Fin n → (Fin k → Fin n) → Fl → Vec D → Vec D) :
    Calls env (strategy k mutant) := fun pop i f cr xb => by
  unfold strategy binomial
  exact .bindT (.intFin hD) fun _ => .bindT (ends_parents i) fun _ => by ends

theorem total_newInd (hE : env.Calm) (opt : OptType) (ext : E) (x : Vec D) : Total env (newInd opt ext x) fun e => e.f ≠ .nan :=
  .bind' (Total.indivEvaluate hE) fun _ h => .pure' h

theorem total_randInd (hE : env.Calm) (hB : B.Proper) (opt : OptType) (ext : E) : Total env (randInd opt B ext) fun e => e.f ≠ .nan :=
  .bind' (.bindT (Total.unifVec hB).ends fun _ => Total.indivEvaluate hE) fun _ h => .pure' h

omit [Arith] in
theorem ends_best {l : List (Ind D E)} (hl : l ≠ []) (xb : Vec D) (fxb : Fl) : Ends env (best l xb fxb) :=
  .getBest (by simpa using hl) (by simp)

omit [Arith] in
theorem survivors_ne {l : List (Ind D E)} (hl : l ≠ []) (new : Fin l.length → Ind D E) : survivors l new ≠ [] := by
  have := List.length_pos_iff.2 hl
  unfold survivors
  rw [Ne, List.ofFn_eq_nil_iff]
  omega

/-- Algorithms built from an evolution step, selection and a change of the population that leaves somebody. -/
theorem safe_mk (hE : env.Calm) (hB : B.Proper) (hN : 0 < N) (opt : OptType) (ext : E) (ev : Evolve D E)
    (post : List (Ind D E) → Prog (Vec D) (List (Ind D E))) (hev : ∀ l xb, Ends env (ev l xb))
    (hpost : ∀ l, l ≠ [] → Total env (post l) (· ≠ [])) : (mk opt B N ext (iter ev select post)).Safe env := by
  refine ⟨fun l : List (Ind D E) => l ≠ [], .bind' (Total.tabM fun _ => total_randInd hE hB opt ext) fun r hr => .pure' ?_, fun l xb fxb hl => ?_⟩
  · have h : List.ofFn r ≠ [] := by rw [Ne, List.ofFn_eq_nil_iff]; omega
    refine ⟨h, by simpa [mk] using h, by simp [mk], fun v hv => ?_⟩
    obtain ⟨e, he, rfl⟩ := List.mem_map.1 hv
    obtain ⟨i, rfl⟩ := List.mem_ofFn.1 he
    exact hr i
  · refine .bindT (hev _ _) fun new => .bind' (P := fun r : List (Ind D E) × Vec D × Fl => r.1 ≠ []) ?_ fun r hr => .bind' (hpost _ hr) fun l' hl' =>
      .bindT (ends_best hl' _ _) fun _ => .pure' hl'
    exact .bindT (ends_best (survivors_ne hl new) _ _) fun _ => .pure' (survivors_ne hl new)

theorem ends_evolve (hE : env.Calm) (opt : OptType) (ext : E) {strat : Strategy D} (hs : Calls env strat) (f cr : Fl) (l xb) :
    Ends env (evolve opt ext strat f cr l xb) :=
  .tabMT fun i => .bindT (hs _ _ _ _ _) fun _ => (total_newInd hE _ _ _).ends

theorem ends_evolveMulti (hE : env.Calm) (opt : OptType) (ext : E) {strats : List (Strategy D)} (hn : strats ≠ [])
    (hs : ∀ s : Strategy D, (s : Strategy D) ∈ strats → Calls env s) (f cr : Fl) (l xb) : Ends env (evolveMulti opt ext strats f cr l xb) :=
  .tabMT fun i => .bind' (.mapMAll fun s hm => .bindT (hs _ hm _ _ _ _ _) fun _ => (total_newInd hE _ _ _).ends) fun c hc =>
    (Total.argminRec fun h => hn (List.length_eq_zero_iff.1 (by rw [← hc.2, h]; rfl))).ends

/-- Differential evolution. -/
theorem safe (hE : env.Calm) (hB : B.Proper) (hN : 0 < N) (opt : OptType) {strat : Strategy D} (hs : Calls env strat) (f cr : Fl) :
    (alg opt B N strat f cr).Safe env :=
  safe_mk hE hB hN opt () _ _ (ends_evolve hE opt () hs f cr) fun _ h => .pure' h

/-- Differential evolution with several strategies. -/
theorem safe_multi (hE : env.Calm) (hB : B.Proper) (hN : 0 < N) (opt : OptType) {strats : List (Strategy D)} (hn : strats ≠ [])
    (hs : ∀ s : Strategy D, (s : Strategy D) ∈ strats → Calls env s) (f cr : Fl) : (algMulti opt B N strats f cr).Safe env :=
  safe_mk hE hB hN opt () _ _ (ends_evolveMulti hE opt () hn hs f cr) fun _ h => .pure' h

omit [Arith] in
theorem total_reduce {pMax : ℕ} (hp : 0 < pMax) (rp : ℕ) (l : List (Ind D E)) (hl : l ≠ []) : Total env (reduce pMax rp l) (· ≠ []) := by
  have := List.length_pos_iff.2 hl
  refine .bindT Total.look.ends fun v => ?_
  rw [if_neg (by positivity)]
  refine .ite (fun h => .pure' ?_) fun _ => .pure' hl
  unfold halve
  rw [Ne, List.ofFn_eq_nil_iff]
  omega

/-- Differential evolution with dynamic population size. -/
theorem safe_dyn (hE : env.Calm) (hB : B.Proper) (hN : 0 < N) (opt : OptType) {strat : Strategy D} (hs : Calls env strat) (f cr : Fl)
    {pMax : ℕ} (hp : 0 < pMax) (rp : ℕ) : (algDyn opt B N strat f cr pMax rp).Safe env :=
  safe_mk hE hB hN opt () _ _ (ends_evolve hE opt () hs f cr) fun l h => total_reduce hp rp l h

/-- Dynamic population size and several strategies. -/
theorem safe_dynMulti (hE : env.Calm) (hB : B.Proper) (hN : 0 < N) (opt : OptType) {strats : List (Strategy D)} (hn : strats ≠ [])
    (hs : ∀ s : Strategy D, (s : Strategy D) ∈ strats → Calls env s) (f cr : Fl) {pMax : ℕ} (hp : 0 < pMax) (rp : ℕ) :
    (algDynMulti opt B N strats f cr pMax rp).Safe env :=
  safe_mk hE hB hN opt () _ _ (ends_evolveMulti hE opt () hn hs f cr) fun l h => total_reduce hp rp l h

end DE

/-- Self-adaptive differential evolution. -/
theorem JDE.safe (hE : env.Calm) (hB : B.Proper) (hN : 0 < N) (opt : OptType) {strat : DE.Strategy D} (hs : DE.Calls env strat) (p : Par) :
    (alg opt B N strat p).Safe env := by
  refine DE.safe_mk hE hB hN opt _ _ _ (fun l xb => ?_) fun _ h => .pure' h
  refine .bindT (.tabMT fun i => ?_) fun ps => .bindT (.forFin _ trivial fun i xs _ => .bindT (hs _ _ _ _ _) fun _ => .pure' trivial) fun xs => ?_
  · unfold adapt newF newCR
    ends
  · ends

/-- Self-adaptive differential evolution with several strategies. -/
theorem JDE.safe_multi (hE : env.Calm) (hB : B.Proper) (hN : 0 < N) (opt : OptType) {strats : List (DE.Strategy D)} (hn : strats ≠ [])
    (hs : ∀ s : DE.Strategy D, (s : DE.Strategy D) ∈ strats → DE.Calls env s) (f cr : Fl) : (algMulti opt B N strats f cr).Safe env :=
  DE.safe_mk hE hB hN opt _ _ _ (DE.ends_evolveMulti hE opt _ hn hs f cr) fun _ h => .pure' h

namespace PSO

theorem ends_particle (hE : env.Calm) {f : Vel D} (hf : ∀ v x pb gb, Ends env (f v x pb gb)) (nested : Bool) (i : Fin N) (s) :
    Ends env (particle f nested i s) :=
  .bindT (hf _ _ _ _) fun _ => .bindT .repair fun _ => .bindT (Total.eval hE).ends fun _ => .pure' trivial

omit [Arith] in
theorem total_init (hE : env.Calm) (hB : B.Proper) (hN : 0 < N) : Total env (init B N) fun s => ∀ i, s.fit i ≠ .nan :=
  .bind' (Total.defaultNumpyInit hE hB hN) fun _ hr => .pure' hr

/-- Particle swarm optimization, also the modified, centered and mutated variants. -/
theorem safe (hE : env.Calm) (hB : B.Proper) (hN : 0 < N) (p : Par D) (u c : Bool) (m : ℕ) : (alg B N p u c m).Safe env := by
  have hv : ∀ v x pb gb, Ends env ((if u then velU else vel) p p.w p.vmin p.vmax v x pb gb) := fun v x pb gb => by
    cases u
    · exact .bindT Total.randVec.ends fun _ => .bindT Total.randVec.ends fun _ => .pure' trivial
    · exact .bindT Total.randVec.ends fun _ => .bindT Total.randVec.ends fun _ => .bindT Total.randVec.ends fun _ => .pure' trivial
  refine ⟨fun _ => True, (total_init hE hB hN).mono fun s hs => ⟨trivial, first_arr hN hs⟩, fun s xb fxb _ => ?_⟩
  refine .bindT (.forFin _ trivial fun i s _ => ends_particle hE hv _ _ _) fun r => .bindT ?_ fun b => .bindT (.forFin _ trivial fun i s _ => ?_) fun _ => .pure' trivial
  · unfold center
    ends
  · unfold mutation
    exact .bindT (Total.unifVec hB).ends fun _ => by ends

theorem total_opposites (hE : env.Calm) (hN : 0 < N) (s : St D N) : Total env (opposites B s) fun l => l ≠ [] ∧ ((∀ i, s.fit i ≠ .nan) → ∀ e ∈ l, e.2 ≠ .nan) := by
  refine .bind' (Total.evalRecs hE (by rw [Ne, List.ofFn_eq_nil_iff]; omega)) fun opp ho => Total.sortRecs.mono fun l hl => ⟨fun h => ?_, fun hs e he => ?_⟩
  · have := hl.1.length_eq
    simp [h] at this
    omega
  · rcases List.mem_append.1 (hl.1.mem_iff.1 he) with h | h
    · obtain ⟨i, rfl⟩ := List.mem_ofFn.1 h
      exact hs i
    · exact ho.1 e h

/-- Opposition-based particle swarm optimization. -/
theorem safe_ovcpso (hE : env.Calm) (hB : B.Proper) (hN : 0 < N) (p : OPar D) : (algO B N p).Safe env := by
  refine ⟨fun _ => True, .bind' (total_init hE hB hN) fun s hs => .bind' (total_opposites hE hN s) fun l hl => .pure' ⟨trivial, first_arr hN fun i => ?_⟩,
    fun s xb fxb _ => ?_⟩
  · show ((l[(i : ℕ)]?).getD (s.pop i, s.fit i)).2 ≠ .nan
    cases h : l[(i : ℕ)]? with
    | none => exact hs i
    | some e => exact hl.2 hs e (List.mem_of_getElem? h)
  · refine .bindT Total.rand.ends fun r => .ite (fun _ => .bind' (total_opposites hE hN _) fun l hl => ?_) fun _ => .bindT Total.look.ends fun t =>
      .bindT (.forFin _ trivial fun i s _ => ends_particle hE (fun v x pb gb => ?_) _ _ _) fun _ => .pure' trivial
    · cases l with
      | nil => exact absurd rfl hl.1
      | cons e l => exact .pure' trivial
    · exact .bindT Total.randVec.ends fun _ => .bindT Total.randVec.ends fun _ => .pure' trivial

/-- Comprehensive learning particle swarm optimization, with two particles or more. -/
theorem safe_clpso (hE : env.Calm) (hB : B.Proper) (hN : 2 ≤ N) (p : CPar D) : (algC B N p).Safe env := by
  have hr : ∀ i s, Ends env (refresh (N := N) p i s) := fun i s => .ite (fun _ => .bindT (ends_particle hE (fun v x pb gb =>
    .bindT Total.randVec.ends fun _ => .bindT Total.randVec.ends fun _ => .pure' trivial) _ _ _) fun _ => .pure' trivial) fun _ => .pure' trivial
  have he : ∀ (s : St D N) i, Ends env (exemplar s i) := fun s i => by
    unfold exemplar
    ends
  refine ⟨fun _ => True, .bind' (total_init hE hB (by omega)) fun s hs => ?_, fun s xb fxb _ => ?_⟩
  · rw [if_neg (by omega)]
    exact .pure' ⟨trivial, first_arr (by omega) hs⟩
  · refine .bindT Total.look.ends fun t => .forFin _ trivial fun i s _ => .bindT (hr _ _) fun s => .bindT (he _ _) fun pb => ?_
    unfold velCl
    ends

end PSO

namespace ES

theorem ends_mutate (x : Vec D) {rho : Fl} (h : ¬ rho < .fin 0) : Ends env (mutate x rho) := by
  unfold mutate
  ends

/-- The factors of the step size: a step size that is not negative stays so. -/
def Par.Steps (p : Par) : Prop := ∀ rho : Fl, ¬ rho < .fin 0 → ¬ p.cR * rho < .fin 0 ∧ ¬ p.cA * rho < .fin 0

theorem adapt_rho {p : Par} (hp : p.Steps) {s : St D} (hs : ¬ s.c.rho < .fin 0) (t : ℕ) : ¬ (adapt p t s).c.rho < .fin 0 := by
  have hone : ¬ (1 : Fl) < .fin 0 := by decide
  unfold adapt
  split
  · show ¬ updateRho p s.c.rho s.ki < .fin 0
    unfold updateRho
    dsimp only
    split
    · split
      · exact (hp _ hs).1
      · exact hone
    · split
      · split
        · exact (hp _ hs).2
        · exact hone
      · exact hs
  · exact hs

/-- The evolution strategies with one parent: (1+1) and (mu+1). -/
theorem safe1 (hE : env.Calm) (hB : B.Proper) (opt : OptType) (p : Par) (hmu : 0 < p.mu) (hk : 0 < p.k) (hp : p.Steps) : (alg1 opt B p).Safe env := by
  have hone : ¬ (1 : Fl) < .fin 0 := by decide
  refine ⟨fun s : St D => ¬ s.c.rho < .fin 0, .bind' (.bindT (Total.unifVec hB).ends fun _ => Total.indivEvaluate hE) fun i hi => .pure'
    ⟨hone, by simp [alg1], rfl, fun v hv => ?_⟩, fun s xb fxb hs => ?_⟩
  · cases List.mem_singleton.1 hv
    exact hi
  · have ha : ∀ t, ¬ (adapt p t s).c.rho < .fin 0 := adapt_rho hp hs
    refine .bindT Total.look.ends fun v => ?_
    rw [if_neg (by omega)]
    refine .bind' (.mapMAll fun _ _ => .bindT (ends_mutate _ (ha _)) fun _ => .repair) fun cn hcn => ?_
    have hne : cn ≠ [] := fun h => by
      have := hcn.2
      simp [h] at this
      omega
    refine .bind' (Total.evalRecs hE hne) fun cn' hcn' => .bind' (Total.argminRec fun h => ?_) fun b _ => .pure' ?_
    · have := hcn'.2
      rw [h] at this
      exact hne (List.length_eq_zero_iff.1 this.symm)
    · unfold accept
      dsimp only
      split
      · split <;> exact ha _
      · exact ha _

/-- Parents and step sizes of a population. -/
def Fine (mu : ℕ) (l : List (Ind D)) : Prop := l.length = mu ∧ ∀ e ∈ l, ¬ e.rho < .fin 0

theorem ends_child (hE : env.Calm) {mu : ℕ} (hmu : 0 < mu) {l : List (Ind D)} (hl : Fine mu l) (b : Bool) : Total env (do
    let y ← mutateRand mu l
    newInd y b) fun e => ¬ e.rho < .fin 0 := by
  refine .bindT (.bind' (Total.int hmu) fun i hi => ?_) fun y => .bindT .repair fun _ => .bindT (Total.eval hE).ends fun _ => .pure' (show ¬ (1 : Fl) < .fin 0 by decide)
  rw [List.getElem?_eq_getElem (by rw [hl.1]; exact hi)]
  exact .bindT (ends_mutate _ (hl.2 _ (List.getElem_mem _))) fun _ => .repair

theorem init_fine (hE : env.Calm) (hB : B.Proper) (opt : OptType) {mu : ℕ} : Total env (initL opt B mu) fun s => Fine mu s.pop ∧ ∀ e ∈ s.pop, e.f ≠ .nan :=
  .bind' (Total.defaultIndividualInit hE hB) fun r hr => .pure' ⟨⟨by simp, fun e he => by
    obtain ⟨i, rfl⟩ := List.mem_ofFn.1 he
    exact (show ¬ (1 : Fl) < .fin 0 by decide)⟩, fun e he => by
    obtain ⟨i, rfl⟩ := List.mem_ofFn.1 he
    exact hr i⟩

theorem adaptL_fine {p : Par} (hp : p.Steps) {s : StL D} (hs : Fine p.mu s.pop) (t : ℕ) : Fine p.mu (adaptL p t s).pop := by
  unfold adaptL
  split
  · show Fine p.mu (updateRhos p s.pop s.ki)
    unfold updateRhos
    dsimp only
    split
    · refine ⟨by simpa using hs.1, fun e he => ?_⟩
      obtain ⟨e', he', rfl⟩ := List.mem_map.1 he
      exact (hp _ (hs.2 _ he')).1
    · split
      · refine ⟨by simpa using hs.1, fun e he => ?_⟩
        obtain ⟨e', he', rfl⟩ := List.mem_map.1 he
        exact (hp _ (hs.2 _ he')).2
      · exact hs
  · exact hs

/-- The (mu+lambda) evolution strategy. -/
theorem safeL (hE : env.Calm) (hB : B.Proper) (opt : OptType) (p : Par) (hmu : 0 < p.mu) (hk : 0 < p.k) (hp : p.Steps) (lam : ℕ) :
    (algL opt B p lam).Safe env := by
  refine ⟨fun s : StL D => Fine p.mu s.pop, (init_fine hE hB opt).mono fun s hs => ⟨hs.1, ?_, by simp [algL], fun v hv => ?_⟩, fun s xb fxb hs => ?_⟩
  · have := hs.1.1
    intro h
    have h : s.pop = [] := by simpa [algL] using h
    simp [h] at this
    omega
  · obtain ⟨e, he, rfl⟩ := List.mem_map.1 hv
    exact hs.2 e he
  · have ha : ∀ t, Fine p.mu (adaptL p t s).pop := adaptL_fine hp hs
    refine .bindT Total.look.ends fun v => ?_
    rw [if_neg (by omega)]
    refine .bind' (.mapMAll fun _ _ => ends_child hE hmu (ha _) true) fun cn hcn => .bind' Total.sortRecs fun r hr => ?_
    have hf : Fine p.mu ((r.take p.mu).map (·.1)) := by
      refine ⟨?_, fun e he => ?_⟩
      · have h1 := hr.1.length_eq
        have h2 := (ha v.iters).1
        simp at h1 ⊢
        omega
      · obtain ⟨e', he', rfl⟩ := List.mem_map.1 he
        rcases List.mem_append.1 (hr.1.mem_iff.1 (List.mem_of_mem_take he')) with h | h
        · obtain ⟨e1, h1, rfl⟩ := List.mem_map.1 h
          exact hcn.1 e1 h1
        · obtain ⟨e1, h1, rfl⟩ := List.mem_map.1 h
          exact (ha _).2 e1 h1
    refine .bindT (.getBest (fun h => ?_) (by simp)) fun _ => .pure' hf
    have h1 := hf.1
    simp only [List.map_eq_nil_iff] at h
    simp [h] at h1
    omega

omit [Arith] in
theorem chunks_length {α : Type} (mu lam k : ℕ) (l : List α) (hl : l.length = lam) :
    ((List.range k).flatMap fun i => l.take (if lam ≤ mu - i * lam then lam else mu - i * lam)).length = min mu (k * lam) := by
  induction k with
  | zero => simp
  | succ k ih =>
    rw [List.range_succ, List.flatMap_append, List.length_append, ih]
    have : (k + 1) * lam = k * lam + lam := by ring
    simp only [List.flatMap_cons, List.flatMap_nil, List.append_nil, List.length_take, hl, this]
    split <;> omega

/-- The (mu, lambda) evolution strategy. -/
theorem safeM (hE : env.Calm) (hB : B.Proper) (opt : OptType) {mu lam : ℕ} (hmu : 0 < mu) (hlam : 0 < lam) : (algM opt B mu lam).Safe env := by
  refine ⟨fun l : List (Ind D) => Fine mu l, .bind' (init_fine hE hB opt) fun s hs => .pure' ⟨hs.1, ?_, by simp [algM], fun v hv => ?_⟩, fun l xb fxb hs => ?_⟩
  · have := hs.1.1
    intro h
    have h : s.pop = [] := by simpa [algM] using h
    simp [h] at this
    omega
  · obtain ⟨e, he, rfl⟩ := List.mem_map.1 hv
    exact hs.2 e he
  · refine .bind' (.mapMAll fun _ _ => ends_child hE hmu hs false) fun cn hcn => .bind' (P := fun l => Fine mu l) ?_ fun l' hl' => ?_
    · have hlen : cn.length = lam := by simpa using hcn.2
      refine .bind' Total.sortRecs fun r hr => .ite (fun h => .pure' ⟨?_, fun e he => ?_⟩) fun h => ?_
      · have := hr.1.length_eq
        simp
        omega
      · exact hcn.1 e (hr.1.mem_iff.1 (List.mem_of_mem_take he))
      · rw [if_neg (by omega)]
        refine .pure' ⟨?_, fun e he => ?_⟩
        · rw [chunks_length _ _ _ _ hlen]
          refine min_eq_left ?_
          have h1 := Nat.div_add_mod (mu + lam - 1) lam
          have h2 := Nat.mod_lt (mu + lam - 1) hlam
          rw [mul_comm] at h1
          omega
        · obtain ⟨i, -, hi⟩ := List.mem_flatMap.1 he
          exact hcn.1 e (List.mem_of_mem_take hi)
    · refine .bindT (.getBest (fun h => ?_) (by simp)) fun _ => .pure' hl'
      have h1 := hl'.1
      simp only [List.map_eq_nil_iff] at h
      simp [h] at h1
      omega

end ES

namespace ASO

omit [Arith] in
theorem total_integersSkip {n fuel : ℕ} {skip : List ℕ} (hn : 0 < n) : Total env (integersSkip 0 n skip fuel : Prog (Vec D) ℕ) fun r => r < n := by
  induction fuel with
  | zero => exact .fuel
  | succ fuel ih => exact .bind' (Total.int hn) fun r hr => .ite (fun _ => ih) fun _ => .pure' (by omega)

omit [Arith] in
/-- C70, what holds: on problems with two dimensions or more the segments of the three movement policies can always be chosen. -/
theorem ends_mask (hD : 2 ≤ D) (seg : Prop) [Decidable seg] (cr : Fl) : Ends env (mask seg cr : Prog (Vec D) (Fin D → Bool)) := by
  unfold mask
  ends

/-- A vector without NaN or infinite coordinates. -/
def Finite (x : Vec D) : Prop := ∀ j, ∃ q, x j = .fin q

/-- Numbers that the movements of an individual with finite coordinates may lead to (`V`), and which the repair function turns into finite ones.
In exact arithmetic `V` can be the finite numbers, in double precision everything but NaN, if the repair function is `limit`. -/
structure Roams (env : Env (Vec D)) (f : Fl) (V : Fl → Prop) : Prop where
  rep : ∀ r k x, (∀ j, V (x j)) → Finite (env.repairFn r k x)
  fin : ∀ q, V (.fin q)
  noise : ∀ (q : ℚ) k, V (.fin q + f * env.rng.dist k .normal 0 1)

variable {V : Fl → Prop} {f : Fl}

omit [Arith] in
theorem repair_finite (hR : ∀ r k x, (∀ j, V (x j)) → Finite (env.repairFn r k x)) {x : Vec D} (hx : ∀ j, V (x j)) : Total env (Prog.repair x) Finite :=
  .ok fun w => ⟨_, _, rfl, hR _ _ _ hx⟩

theorem Roams.of (hV : Roams env f V) {x : Vec D} (hx : Finite x) (j : Fin D) : V (x j) := by
  obtain ⟨q, hq⟩ := hx j
  rw [hq]; exact hV.fin q

theorem total_mpC (hV : Roams env f V) (hD : 2 ≤ D) {x : Vec D} (hx : Finite x) (cr mp : Fl) : Total env (mpC x f cr mp) fun y => ∀ j, V (y j) := by
  refine .bindT (ends_mask hD _ _) fun m => .tabM (P := fun _ (v : Fl) => V v) fun j => .ite (fun _ => ?_) fun _ => .pure' (hV.of hx j)
  refine .ok fun w => ⟨x j + f * env.rng.dist w.rk .normal 0 1, _, rfl, ?_⟩
  obtain ⟨q, hq⟩ := hx j
  rw [hq]; exact hV.noise q _

theorem total_mpS (hV : Roams env f V) (hD : 2 ≤ D) {x xr xb : Vec D} (hx : ∀ j, V (x j)) (hr : Finite xr) (hb : Finite xb) (cr mp : Fl) :
    Total env (mpS x xr xb cr mp) fun y => ∀ j, V (y j) := by
  refine .bindT (ends_mask hD _ _) fun _ => .pure' fun j => ?_
  split
  · split
    · exact hV.of hb j
    · exact hV.of hr j
  · exact hx j

theorem total_mpP (hV : Roams env f V) (hD : 2 ≤ D) {x xpb : Vec D} (hx : ∀ j, V (x j)) (hp : Finite xpb) (cr mp : Fl) :
    Total env (mpP x xpb cr mp) fun y => ∀ j, V (y j) := by
  refine .bindT (ends_mask hD _ _) fun _ => .pure' fun j => ?_
  split
  · exact hV.of hp j
  · exact hx j

theorem total_candidates (hV : Roams env f V) (hD : 2 ≤ D) (cr : Fl) {x xpb xb xr : Vec D} (hx : Finite x) (hp : Finite xpb) (hb : Finite xb)
    (hr : Finite xr) (mc ms mp : Fl) : Total env (candidates f cr x xpb xb xr mc ms mp) fun cs => ∀ k, Finite (cs k) := by
  refine .bind' (total_mpC hV hD hx _ _) fun _ h => .bind' (repair_finite hV.rep h) fun a ha => .bind' (total_mpS hV hD (hV.of hx) hr hb _ _) fun _ h =>
    .bind' (repair_finite hV.rep h) fun b hb => .bind' (total_mpP hV hD (hV.of hx) hp _ _) fun _ h => .bind' (repair_finite hV.rep h) fun c hc => .pure' fun k => ?_
  match k with
  | 0 => exact ha
  | 1 => exact hb
  | 2 => exact hc

theorem total_combine (hE : env.Calm) (hV : Roams env f V) (hD : 2 ≤ D) (c : Comb) (cr : Fl) {x xpb xb xr : Vec D} (hx : Finite x) (hp : Finite xpb)
    (hb : Finite xb) (hr : Finite xr) (mc ms mp : Fl) : Total env (combine c f cr x xpb xb xr mc ms mp) fun r => Finite r.1 := by
  cases c with
  | elitism =>
    exact .bind' (total_candidates hV hD cr hx hp hb hr ..) fun cs hcs => .bindT (Total.evalRows hE (by omega)).ends fun fs => .bindT (.argminIdx (by omega)) fun i => .pure' (hcs i)
  | sequential =>
    exact .bind' (total_mpC hV hD hx _ _) fun _ h => .bind' (total_mpP hV hD h hp _ _) fun _ h => .bind' (total_mpS hV hD h hr hb _ _) fun _ h =>
      .bind' (repair_finite hV.rep h) fun a ha => .bindT (Total.eval hE).ends fun _ => .pure' ha
  | crossover =>
    refine .bind' (total_candidates hV hD cr hx hp hb hr ..) fun cs hcs => .bind' (.tabM (P := fun _ (v : Fl) => ∃ q, v = .fin q) fun j => ?_) fun y hy => .bindT (Total.eval hE).ends fun _ => .pure' hy
    exact .bindT Total.rand.ends fun r => .ite (fun _ => .bindT (.intFin (by omega)) fun k => .pure' (hcs k j)) fun _ => .pure' (hx j)

omit [Arith] in
theorem best_arr (hN : 0 < N) {new : Fin N → Vec D × Fl} (hn : ∀ i, Finite (new i).1) {xb : Vec D} (hb : Finite xb) {fxb : Fl} :
    Total env (Prog.getBest (List.ofFn fun i => (new i).1) (List.ofFn fun i => (new i).2) xb fxb) fun b => Finite b.1 := by
  refine .ofExcept ?_
  obtain ⟨i, h1, h2⟩ := Total.argmin_ok (l := List.ofFn fun i => (new i).2) (by rw [Ne, List.ofFn_eq_nil_iff]; omega)
  have h3 : i < (List.ofFn fun i => (new i).1).length := by simpa using h2
  unfold NiaPy.getBest
  simp only [h1, List.getElem?_eq_getElem h2, List.getElem?_eq_getElem h3]
  split
  · exact ⟨_, rfl, by simp only [List.getElem_ofFn]; exact hn _⟩
  · exact ⟨_, rfl, hb⟩

/-- Anarchic society optimization, on problems with two dimensions or more: the coefficients are given, repair returns numbers, and
every solution is its own neighbour. -/
theorem safe (hE : env.Calm) (hB : B.Proper) (hN : 0 < N) (hD : 2 ≤ D) (p : Par D) (fuel : ℕ)
    (hV : Roams env p.f V) (ha : ∀ a ∈ [p.alpha, p.gamma, p.theta], ∃ l, fullArray a N = .ok l)
    (hself : ∀ x, Finite x → p.dn x x / p.dn B.hi B.lo ≤ p.nl) : (alg B N p fuel).SafeAt env := by
  have harr : ∀ a ∈ [p.alpha, p.gamma, p.theta], Ends env (arr a N : Prog (Vec D) (Fin N → Fl)) := fun a h => by
    obtain ⟨l, hl⟩ := ha a h
    exact .bindT (.ofExcept ⟨l, hl, trivial⟩) fun _ => .pure' trivial
  have hinit : Total env (defaultNumpyInit B N) fun r => (∀ i, r.2 i ≠ .nan) ∧ ∀ i, Finite (r.1 i) := by
    unfold defaultNumpyInit
    refine .bind' (.tabM fun _ => Total.unifVec hB) fun pop hpop => ?_
    rw [if_neg (by omega)]
    refine .bind' (.tabM fun _ => Total.eval hE) fun r hr => .pure' ⟨hr, fun i j => ?_⟩
    have h1 := hB j
    have h2 := hpop i j
    cases hl : B.lo j <;> cases hh : B.hi j <;> rw [hl, hh] at h1 h2 <;> try (cases h1; done)
    cases hv : pop i j with
    | fin q => exact ⟨q, hv⟩
    | _ => rw [hv] at h2; rcases h2 with ⟨h, h'⟩; first | cases h; done | cases h'; done
  refine ⟨fun (s : St D N) xb => s.rs = p.dn B.hi B.lo ∧ (∀ i, Finite (s.pop i) ∧ Finite (s.pb i)) ∧ Finite xb, ?_, fun s xb fxb hs => ?_⟩
  · exact .bind' hinit fun r hr => .bindT (harr _ (by simp)) fun _ => .bindT (harr _ (by simp)) fun _ => .bindT (harr _ (by simp)) fun _ =>
      .pure' ⟨fun x hx => ⟨rfl, fun i => ⟨hr.2 i, hr.2 i⟩, by obtain ⟨i, rfl⟩ := List.mem_ofFn.1 hx; exact hr.2 i⟩, first_arr hN hr.1⟩
  · refine .bindT (.tabMT fun i => (Total.argminRec fun h => ?_).ends) fun nb => .bind' (.tabM (P := fun _ (r : Vec D × Fl) => Finite r.1) fun i => ?_) fun new hnew =>
      .bind' (best_arr hN hnew hs.2.2) fun _ hb => .pure' ⟨hs.1, fun i => ⟨hnew i, ?_⟩, hb⟩
    · have : i ∈ (List.finRange N).filter fun j => p.dn (s.pop i) (s.pop j) / s.rs ≤ p.nl := by
        refine List.mem_filter.2 ⟨List.mem_finRange i, ?_⟩
        rw [hs.1]
        exact decide_eq_true (hself _ (hs.2.1 i).1)
      rw [h] at this
      cases this
    · refine .bind' (total_integersSkip hN) fun r hr => .bind' (.ofExcept (P := Finite) ⟨s.pop ⟨r, hr⟩, by rw [dif_pos hr], (hs.2.1 _).1⟩) fun xr hxr => total_combine hE hV hD _ _ (hs.2.1 i).1 (hs.2.1 i).2 hs.2.2 hxr ..
    · change Finite (if (new i).2 < s.pbf i then (new i).1 else s.pb i)
      split
      exacts [hnew i, (hs.2.1 i).2]

end ASO

namespace MKE

/-- Monkey king evolution, with a number of trials and kings that fits the population. -/
theorem safe (hE : env.Calm) (hB : B.Proper) (opt : OptType) (p : Par) (v2 : Bool) (hN : 0 < N) (hk : p.kings N ≤ N)
    (h1 : v2 = false → 0 < p.trials false D N) (h2 : v2 = true → 2 ≤ N) : (alg opt B N p v2).Safe env := by
  have hc : ∀ pop : Fin N → Ind D, Total env (crown p pop) fun r => ∀ i, (r i).f = (pop i).f := fun pop =>
    .bindT (Total.choiceFin hk).ends fun idx => .pure' fun i => by
      split <;> rfl
  refine ⟨fun _ => True, .bind' (Total.defaultIndividualInit hE hB) fun r hr => (hc _).mono fun s hs => ⟨trivial, first_arr hN fun i => by rw [hs i]; exact hr i⟩,
    fun s xb fxb _ => ?_⟩
  refine .bindT (.forFin _ trivial fun i pop _ => .bindT ?_ fun _ => .pure' trivial) fun pop => .bindT (hc _).ends fun pop => .bindT (.getBest_arr hN) fun _ => .pure' trivial
  unfold moveOne
  refine .ite (fun _ => .ite (fun h => ?_) fun h => ?_) fun _ => ?_
  · have := h2 h
    unfold kingV2 trialV2
    ends
  · have h : v2 = false := by simpa using h
    subst h
    have := h1 rfl
    unfold kingV1
    ends
  · unfold moveParticle
    ends

/-- Monkey king evolution, version 3. -/
theorem safe3 (hE : env.Calm) (hB : B.Proper) (hN : 0 < N) (fc : Fl) {n : ℕ} (hn : 0 < n) : (alg3 B N fc n).Safe env := by
  refine ⟨fun _ => True, .bind' (Total.defaultNumpyInit hE hB hN) fun r hr => .pure' ⟨trivial, first_arr hN hr⟩, fun s xb fxb _ => ?_⟩
  show Ends env (iter3 fc n s xb fxb)
  unfold iter3 mixRows
  ends

end MKE

end NiaPy
