import Verif.Runs
import Verif.Repair
import Verif.Algo.BA
import Verif.Algo.ABC
import Verif.Algo.BEA
import Verif.Algo.BFO
import Verif.Algo.CS
import Verif.Algo.FPA
import Verif.Algo.FA
import Verif.Algo.GSA
import Verif.Algo.GWO
import Verif.Algo.GSO
import Verif.Algo.GA
import Verif.Algo.FOA
import Verif.Algo.FSS
import Verif.Algo.CLONALG
import Verif.Algo.DE
import Verif.Algo.ES
import Verif.Algo.PSOVariants
import Verif.Algo.SCA
import Verif.Algo.HS
import Verif.Algo.MFO
import Verif.Algo.JDE
import Verif.Algo.SHADE
import Verif.Algo.MKE
import Verif.Algo.SA
import Verif.Algo.HC
import Verif.Algo.HHO
import Verif.Algo.KH
import Verif.Algo.MBO
import Verif.Algo.CA
import Verif.Algo.CSO
import Verif.Algo.FWA
import Verif.Algo.BAT
import Verif.Algo.NM
import Verif.Algo.ASO
import Verif.Algo.MSHOA
import Verif.Algo.MTS
import Verif.Algo.CRO
import Verif.Algo.LOA

/-!
# The properties C17, C18, C20, C25–C31 for all modelled algorithms

`Covered` lists the modelled algorithms; `Covered.verified` collects what is proved about them one by one.
-/

namespace NiaPy
variable {X : Type} [Arith] {D : ℕ}

/-- The modelled algorithms, for all parameters: algorithm, whether it keeps the best solution it evaluates, whether it
passes its generator to `task.repair`, whether it has no unbounded rejection loop, whether the fitness values it keeps always
belong to its individuals, whether everything it evaluates has been repaired or is within the bounds otherwise, and the number of evaluations (initially, and bounds per iteration). -/
inductive Covered (opt : OptType) (B : Box D) : Alg (Vec D) → Bool → Bool → Bool → Bool → Bool → Cost → Prop
  | ba (N p) : Covered opt B (BA.alg B N p) true false true true true (.exact N N)
  | abc (N limit fuel) : Covered opt B (ABC.alg opt B N limit fuel) true true false true true ⟨N, 2 * (N / 2), some (4 * (N / 2))⟩
  | bea (N p) (h1 : 1 ≤ p.m) (he : p.e ≤ p.m) (hm : p.m ≤ N) :
      Covered opt B (BEA.alg B N p) true false true true true (.exact N (p.e * p.nep + (p.m - p.e) * p.nsp + (N - p.m)))
  | bfo (N p k0 j0 i) (haff : i = true → AffineLaw B) :
      Covered opt B (BFO.alg B N p k0 j0) true false true true i ⟨N, 2 * (N / 2), some (N * (p.nSwim + 2))⟩
  | cs (N pa) : Covered opt B (CS.alg B N pa) true true true true true (.exact N (2 * N))
  | fpa (N p) : Covered opt B (FPA.alg B N p) true true true true true (.exact N N)
  | fa (N p) : Covered opt B (FA.alg B N p) true false true true true ⟨N, 0, some (N * N)⟩
  | gsa (N p) : Covered opt B (GSA.alg B N p) true true true true true (.exact N N)
  | gwo (N) : Covered opt B (GWO.alg B N) true true true true true (.exact N N)
  | gso (N p) : Covered opt B (GSO.alg B N p) true true true true true (.exact N N)
  | ga (N p fuel) : Covered opt B (GA.alg opt B N p fuel) true true true true true (.exact N N)
  | foa (N p) (ha : 0 < p.areaLimit) : Covered opt B (FOA.alg B N p) true true true true true ⟨N, 1, none⟩
  | fss (N p) : Covered opt B (FSS.alg opt B N p) true true true true true (.exact N (2 * N))
  | clonalg (b N p i) (hd : i = true → CLONALG.DecodeLaw B b) :
      Covered opt B (CLONALG.alg B b N p) true true true true i (.exact N (N * p.numClones + p.numRand))
  | de (N strat f cr) (hs : DE.QuietStrategy strat) : Covered opt B (DE.alg opt B N strat f cr) true true true true true (.exact N N)
  | deMulti (N strats f cr) (hs : ∀ s ∈ strats, DE.QuietStrategy s) :
      Covered opt B (DE.algMulti opt B N strats f cr) true true true true true (.exact N (N * strats.length))
  | deDyn (N strat f cr pMax rp) (hs : DE.QuietStrategy strat) :
      Covered opt B (DE.algDyn opt B N strat f cr pMax rp) true true true true true ⟨N, min N 2, some N⟩
  | deDynMulti (N strats f cr pMax rp) (hs : ∀ s ∈ strats, DE.QuietStrategy s) :
      Covered opt B (DE.algDynMulti opt B N strats f cr pMax rp) true true true true true ⟨N, min N 2 * strats.length, some (N * strats.length)⟩
  | deAging (N strat f cr p age) (hs : DE.QuietStrategy strat) :
      Covered opt B (DE.algAging opt B N strat f cr p age) true true true true true ⟨N, 1, none⟩
  | es1 (p) : Covered opt B (ES.alg1 opt B p) true true true true true (.exact 1 p.mu)
  | esL (p lam) : Covered opt B (ES.algL opt B p lam) true true true true true (.exact p.mu lam)
  | esM (mu lam) : Covered opt B (ES.algM opt B mu lam) true false true true true (.exact mu lam)
  | pso (N p u c m i) (hc : i = true → c = true → PSO.CenterLaw B N) :
      Covered opt B (PSO.alg B N p u c m) true true true true i (.exact N (N + c.toNat + m))
  | ovcpso (N p i) (ho : i = true → PSO.OppLaw B) : Covered opt B (PSO.algO B N p) true true true true i (.exact (2 * N) N)
  | clpso (N p) : Covered opt B (PSO.algC B N p) true true true false true ⟨N, 0, some (2 * N)⟩
  | sca (N p) : Covered opt B (SCA.alg B N p) true true true true true (.exact N N)
  | hs (N p) : Covered opt B (HS.alg B N p) true true true true true (.exact N 1)
  | mfo (N) : Covered opt B (MFO.alg B N) true true true true true (.exact N N)
  | mke (N p v2) :
      Covered opt B (MKE.alg opt B N p v2) true true true true true (.exact N (p.kings N * p.trials v2 D N + (N - p.kings N)))
  | mke3 (N fc n) : Covered opt B (MKE.alg3 B N fc n) true true true true true (.exact N (n + N))
  | jde (N strat p) (hs : DE.QuietStrategy strat) : Covered opt B (JDE.alg opt B N strat p) true false true true true (.exact N N)
  | jdeMulti (N strats f cr) (hs : ∀ s ∈ strats, DE.QuietStrategy s) :
      Covered opt B (JDE.algMulti opt B N strats f cr) true true true true true (.exact N (N * strats.length))
  | shade (p) : Covered opt B (SHADE.alg opt B p) true false true true true p.cost
  | sa (p i) (haff : i = true → AffineLaw B) (hsub : SubNeg) : Covered opt B (SA.alg B p) true true true true i (.exact 1 1)
  | hc (delta fuel i) (haff : i = true → AffineLaw B) : Covered opt B (HC.alg B delta fuel) true true false true i ⟨1, 2, none⟩
  | hho (N levy) : Covered opt B (HHO.alg B N levy) false true true true true ⟨N, N, some (3 * N)⟩
  | kh (N p) : Covered opt B (KH.alg B N p) true true true true true (.exact N (N + 1))
  | mbo (N p) : Covered opt B (MBO.alg B N p) false false true true true (.exact N (2 * N))
  | ca (N p) : Covered opt B (CA.alg opt B N p) false true true true true ⟨N, 0, some (2 * N)⟩
  | cso (N p) : Covered opt B (CSO.alg B N p) false false true true true (.exact N (p.cost N))
  | bbfwa (p) : Covered opt B (FWA.bbAlg B p) true true true true true (.exact 1 p.num)
  | fwa (N p i) (hr : i = true → ∀ x, B.NotOut (Repair.reflect B x)) : Covered opt B (FWA.alg B N p) false true true true i ⟨N, N + p.gauss, none⟩
  | efwa (N p a0 a1) : Covered opt B (FWA.algE B N p a0 a1) false true true true true ⟨N, N + p.gauss, none⟩
  | aba (N p) : Covered opt B (BAT.alg B N p) true true true true true (.exact N N)
  | saba (N p q) : Covered opt B (BAT.algS B N p q) true true true true true (.exact N N)
  | hsaba (N p q strat f cr) (hs : DE.QuietStrategy strat) : Covered opt B (BAT.algHS B N p q strat f cr) true true true true true (.exact N N)
  | hba (N p c f cr) (hs : DE.QuietStrategy (BAT.Callee.run c)) : Covered opt B (BAT.algH B N p c f cr) true true true true true (.exact N N)
  | plba (N) : Covered opt B (BAT.algP B N) true false true true true (.exact N N)
  | nm (N p) : Covered opt B (NM.alg B N p) true true true true false ⟨N, 1, some (N + 1)⟩
  | aso (N p fuel) : Covered opt B (ASO.alg B N p fuel) true true false true true (.exact N (N * p.comb.cost))
  | mshoa (N p) (hp : p.norm = false) : Covered opt B (MSHOA.alg B N p) false true true true true (.exact (2 * N) N)
  | mts (N p) (hp : p.best = 0) : Covered opt B (MTS.alg B N p) true true p.bounded false true (MTS.cost D N p)
  | cro (N p) : Covered opt B (CRO.alg B N p) true true true false true ⟨N, N + min p.numAsexual N, none⟩
  | loa (N p) : Covered opt B (LOA.alg opt B N p) false false true true true ⟨N, 0, none⟩

variable {opt : OptType} {B : Box D} {A : Alg (Vec D)} {k s t a i : Bool} {K : Cost}

theorem Verified.weaken {A : Alg X} {G G' : X → Prop} {s t : Bool} {K : Cost} (h : Verified A G s t K) (hG : ∀ x, G x → G' x) :
    VerifiedIf NoAssumption A G' s t K := by
  obtain ⟨Inv, h⟩ := h.toIf
  exact ⟨Inv, fun C _ h' => h C trivial fun x hx => h' x (hG x hx)⟩

theorem VerifiedIf.imp {A : Alg X} {H H' : Ctx X → Prop} {G G' : X → Prop} {s t : Bool} {K : Cost} {al al' : Prop}
    (h : VerifiedIf H A G s t K al) (hH : ∀ C, H' C → H C) (hG : ∀ x, G x → G' x) (hal : al' → al := by simp) :
    VerifiedIf H' A G' s t K al' := by
  obtain ⟨Inv, h⟩ := h
  refine ⟨Inv, fun C hC h' h1 h2 => ?_⟩
  obtain ⟨i1, i2, i3⟩ := h C (hH C hC) (fun x hx => h' x (hG x hx)) h1 h2
  exact ⟨fun h => i1 (hal h), i2, i3⟩

/-- What the modelled algorithms may assume: the points allowed are either all points or those within the bounds (the former if
the algorithm does not keep to the bounds), and an algorithm that may lose the best solution need not track it. -/
def Assumed (B : Box D) (k i : Bool) (C : Ctx (Vec D)) : Prop :=
  (C.G = (fun _ => True) ∨ i = true ∧ C.G = B.NotOut) ∧ (k = false → NoTracking C)

omit [Arith] in
theorem Assumed.mix {B : Box D} {k i : Bool} {C : Ctx (Vec D)} (h : Assumed B k i C) : MixOK B C := by
  intro m _ x y hx hy
  rcases h.1 with h | h
  · rw [h]; trivial
  · rw [h.2] at hx ⊢
    intro j
    simp only
    split
    · exact hy.notOut j
    · exact hx j

omit [Arith] in
theorem Assumed.pointwise {B : Box D} {k i : Bool} {C : Ctx (Vec D)} (h : Assumed B k i C) : ASO.Pointwise C := by
  intro x hx
  rcases h.1 with h | h
  · rw [h]; trivial
  · rw [h.2] at hx ⊢
    intro j
    obtain ⟨y, hy, e⟩ := hx j
    rw [e]
    exact hy j

omit [Arith] in
theorem Assumed.all {B : Box D} {k : Bool} {C : Ctx (Vec D)} (h : Assumed B k false C) (x : Vec D) : C.G x := by
  rcases h.1 with h | h
  · rw [h]; trivial
  · cases h.1

omit [Arith] in
theorem metBy_assumed (B : Box D) (k i : Bool) (env : Env (Vec D)) {trk : Prop} (ht : k = true ∨ ¬ trk) :
    MetBy (Assumed B k i) env trk :=
  fun C _ h2 h3 _ _ => ⟨Or.inl h3, fun hk ht' => by
    rcases ht with ht | ht
    · cases hk.symm.trans ht
    · exact ht (h2 ht')⟩

omit [Arith] in
theorem metBy_assumed_notOut (B : Box D) (k : Bool) (env : Env (Vec D)) {trk : Prop} (ht : k = true ∨ ¬ trk) :
    MetBy (Assumed B k true) env trk B.NotOut :=
  fun C _ h2 h3 _ _ => ⟨Or.inr ⟨rfl, h3⟩, fun hk ht' => by
    rcases ht with ht | ht
    · cases hk.symm.trans ht
    · exact ht (h2 ht')⟩

theorem Verified.assumed {G : Vec D → Prop} (h : Verified A G s t K) (hG : ∀ x, G x → B.Mem x) :
    VerifiedIf (Assumed B k i) A B.Mem s t K (true = true) := (h.weaken hG).imp (fun _ _ => trivial) fun _ h => h

theorem Verified.assumedIf {G : Vec D → Prop} (h : Verified A G s t K) (hG : i = true → ∀ x, G x → B.Mem x) :
    VerifiedIf (Assumed B k i) A B.Mem s t K (true = true) := by
  obtain ⟨Inv, h⟩ := h.toIf
  refine VerifiedIf.imp (H := Assumed B k i) (al := True) (G := B.Mem) ⟨Inv, fun C hC h' => h C trivial fun x hx => ?_⟩ (fun _ h => h) fun _ h => h
  rcases hC.1 with hC | hC
  · rw [hC]; trivial
  · exact h' x (hG hC.1 x hx)

theorem Covered.verified (h : Covered opt B A k s t a i K) : VerifiedIf (Assumed B k i) A B.Mem s t K (a = true) := by
  cases h with
  | ba N p => exact (BA.verified B N p).assumed fun _ h => h
  | abc N limit fuel => exact (ABC.verified opt B N limit fuel).assumed fun _ h => h
  | bea N p h1 he hm => exact (BEA.verified B N p h1 he hm).assumed fun _ h => h
  | bfo N p k0 j0 i haff => exact (BFO.verified B N p k0 j0).assumedIf fun hi _ h => h.elim id (·.mem (haff hi))
  | cs N pa => exact (CS.verified B N pa).assumed fun _ h => h
  | fpa N p => exact (FPA.verified B N p).assumed fun _ h => h
  | fa N p => exact (FA.verified B N p).assumed fun _ h => h
  | gsa N p => exact (GSA.verified B N p).assumed fun _ h => h
  | gwo N => exact (GWO.verified B N).assumed fun _ h => h
  | gso N p => exact (GSO.verified B N p).assumed fun _ h => h
  | ga N p fuel => exact (GA.verified opt B N p fuel).assumed nofun
  | foa N p ha => exact (FOA.verified B N p ha).imp (fun _ h => h.mix) fun _ h => h
  | fss N p => exact (FSS.verified opt B N p).assumed nofun
  | clonalg b N p i hd => exact (CLONALG.verified B b N p).assumedIf fun hi x ⟨w, h⟩ => h ▸ hd hi w
  | de N strat f cr hs => exact (DE.verified opt B N hs f cr).assumed nofun
  | deMulti N strats f cr hs => exact (DE.verifiedMulti opt B N hs f cr).assumed nofun
  | deDyn N strat f cr pMax rp hs => exact (DE.verifiedDyn opt B N hs f cr pMax rp).assumed nofun
  | deDynMulti N strats f cr pMax rp hs => exact (DE.verifiedDynMulti opt B N hs f cr pMax rp).assumed nofun
  | deAging N strat f cr p age hs => exact (DE.verifiedAging opt B N hs f cr p age).assumed nofun
  | es1 p => exact (ES.verified1 opt B p).assumed nofun
  | esL p lam => exact (ES.verifiedL opt B p lam).assumed nofun
  | esM mu lam => exact (ES.verifiedM opt B mu lam).assumed nofun
  | pso N p u c m i hc =>
    refine (PSO.verified B N p u c m).imp (fun C h hc' rows hr => ?_) fun _ h => h
    rcases h.1 with h | ⟨hi, h⟩
    · rw [h]; trivial
    · rw [h] at hr ⊢; exact hc hi hc' rows hr
  | sca N p => exact (SCA.verified B N p).assumed fun _ h => h
  | hs N p => exact (HS.verified B N p).assumed fun _ h => h
  | mfo N => exact (MFO.verified B N).assumed fun _ h => h
  | mke N p v2 => exact (MKE.verified opt B N p v2).assumed nofun
  | mke3 N fc n => exact (MKE.verified3 B N fc n).assumed fun _ h => h
  | jde N strat p hs => exact (JDE.verified opt B N hs p).assumed nofun
  | jdeMulti N strats f cr hs => exact (JDE.verifiedMulti opt B N hs f cr).assumed nofun
  | shade p => exact (SHADE.verified opt B p).assumed nofun
  | sa p i haff hsub => exact (SA.verified B hsub p).assumedIf fun hi _ h => h.mem (haff hi)
  | hc delta fuel i haff => exact (HC.verified B delta fuel).assumedIf fun hi _ h => h.mem (haff hi)
  | hho N levy => exact (HHO.verified B N levy).imp (fun _ h => h.2 rfl) fun _ h => h
  | kh N p => exact (KH.verified B N p).assumed fun _ h => h
  | mbo N p => exact (MBO.verified B N p).imp (fun _ h => h.2 rfl) fun _ h => h
  | ca N p => exact (CA.verified_any opt B N p).imp (fun _ h => h.2 rfl) fun _ h => h
  | cso N p => exact (CSO.verified B N p).imp (fun _ h => h.2 rfl) fun _ h => h
  | bbfwa p => exact (FWA.bb_verified B p).assumed fun _ h => h
  | fwa N p i hr =>
    refine (FWA.verified B N p).imp (fun C h => ⟨h.2 rfl, fun x => ?_⟩) fun _ h => h
    rcases h.1 with h | ⟨hi, h⟩
    · rw [h]; trivial
    · rw [h]; exact hr hi x
  | efwa N p a0 a1 =>
    refine (FWA.verifiedE B N p a0 a1).imp (fun C h => ⟨h.2 rfl, fun x hx => ?_⟩) fun _ h => h
    rcases h.1 with h | ⟨hi, h⟩
    · rw [h]; trivial
    · rw [h]; exact hx
  | aba N p => exact (BAT.verified B N p).assumed fun _ h => h
  | saba N p q => exact (BAT.verifiedS B N p q).assumed fun _ h => h
  | hsaba N p q strat f cr hs => exact (BAT.verifiedHS B N p q hs f cr).assumed fun _ h => h
  | hba N p c f cr hs => exact (BAT.verifiedH B N p hs f cr).assumed fun _ h => h
  | plba N => exact (BAT.verifiedP B N).assumed fun _ h => h
  | nm N p => exact (NM.verified B N p).imp (fun _ h => h.all) fun _ h => h
  | aso N p fuel => exact (ASO.verified B N p fuel).imp (fun _ h => h.pointwise) fun _ h => h
  | mshoa N p hp =>
    refine (MSHOA.verified B N p hp).imp (fun C h => ⟨h.2 rfl, fun x hx => ?_⟩) fun _ h => h
    rcases h.1 with h | ⟨hi, h⟩
    · rw [h]; trivial
    · rw [h]; exact hx
  | mts N p hp => exact (MTS.verified B N p).imp (fun _ _ => .inl hp) fun _ h => h
  | cro N p => exact (CRO.verified B N p).imp (fun _ h => h.pointwise) fun _ h => h
  | loa N p => exact (LOA.verified opt B N p).imp (fun _ h => h.2 rfl) fun _ h => h
  | ovcpso N p i ho =>
    refine (PSO.verifiedO B N p).imp (fun C h x hx => ?_) fun _ h => h
    rcases h.1 with h | ⟨hi, h⟩
    · rw [h]; trivial
    · rw [h] at hx ⊢; exact ho hi x hx
  | clpso N p => exact (PSO.verifiedC B N p).imp (fun _ _ => trivial) fun _ h => h

/-! ## C17 -/

/-- C17: with `max_iters = m` a run makes at most `m` iterations and ends: the bound on loop rounds of the model is never
hit. -/
theorem C17_max_iters (hA : Covered opt B A k s true a i K) (env : Env (Vec D)) (hE : NoFuelError env) (m : ℕ)
    (hm : env.maxIters = some m) (main : Bool) (ncb fuel : ℕ) (hfuel : m < fuel) :
    (A.exec env main ncb fuel).1 ≠ .error .outOfFuel ∧ (A.exec env main ncb fuel).2.st.iters ≤ m :=
  C17_terminates hA.verified env (metBy_assumed _ _ _ _ (Or.inr id)) hE m hm main ncb fuel hfuel

/-- C17: with `max_evals = m`, an algorithm that evaluates something in every iteration ends as well. -/
theorem C17_max_evals (hA : Covered opt B A k s true a i K) (hlo : 0 < K.lo) (env : Env (Vec D)) (hE : NoFuelError env) (m : ℕ)
    (hm : env.maxEvals = some m) (main : Bool) (ncb fuel : ℕ) (hfuel : m < fuel) :
    (A.exec env main ncb fuel).1 ≠ .error .outOfFuel :=
  C17_terminates_max_evals hA.verified hlo env (metBy_assumed _ _ _ _ (Or.inr id)) hE m hm main ncb fuel hfuel

/-- C17, for any algorithm: a run that returns a solution ends with `stopping_condition()` true. -/
theorem C17_stopped (A : Alg X) (env : Env X) (main : Bool) (ncb fuel : ℕ) (out : RunOut X) (res : X × Fl)
    (hrun : (A.exec env main ncb fuel).1 = .ok out) (hres : out.result = some res) :
    stoppingCondition env.toTaskCfg (A.exec env main ncb fuel).2.st = true := by
  rw [exec_eq] at hrun ⊢
  simp only at hrun ⊢
  split at hrun
  · rename_i r hr
    obtain ⟨hist, w, -, hs, hf⟩ := body_trace hr
    have := fireAll_st env ncb .afterRun w
    rw [hf] at this
    rw [this]; exact hs
  · split at hrun
    · cases hrun
    · cases hrun; cases hres

/-! ## C18 -/

theorem fireAll_prefix (env : Env X) (ncb : ℕ) (e : Event X) (w : World X) :
    ∃ k ≤ ncb, ((fireAll ncb e).run env w).2.events = w.events ++ (List.range k).map (·, e) ∧
      (((fireAll ncb e).run env w).1 = .ok () → k = ncb) := by
  have key : ∀ n a : ℕ, ∀ w : World X, ∃ k ≤ n,
      ((forList (List.range' a n) (fun i _ => Prog.fire i e) ()).run env w).2.events =
        w.events ++ (List.range' a k).map (·, e) ∧
      (((forList (List.range' a n) (fun i _ => Prog.fire i e) ()).run env w).1 = .ok () → k = n) := by
    intro n
    induction n with
    | zero => intro a w; exact ⟨0, le_rfl, by simp [forList], fun _ => rfl⟩
    | succ n ih =>
      intro a w
      simp only [List.range'_succ, forList, Prog.run_bind, Prog.run_fire]
      cases env.callback a w.events.length e with
      | ok u =>
        simp only
        obtain ⟨k, hk, h1, h2⟩ := ih (a + 1) { w with events := w.events ++ [(a, e)] }
        refine ⟨k + 1, by omega, ?_, fun h => by rw [h2 h]⟩
        rw [h1]
        simp [List.range'_succ]
      | error e' => exact ⟨1, by omega, by simp, nofun⟩
  have := key ncb 0 w
  simpa only [fireAll, List.range_eq_range'] using this

/-- C18: the callbacks are invoked in the documented order: event number `n` of a run goes to callback `n % ncb`, round 0
is `before_run`, then `before_iteration` and `after_iteration` alternate, `after_run` comes last; in one round all
callbacks are shown the same. -/
theorem C18_order (hA : Covered opt B A k s t a i K) (env : Env (Vec D)) (main : Bool) (ncb fuel n i : ℕ) (e : Event (Vec D))
    (h : (A.exec env main ncb fuel).2.events[n]? = some (i, e)) :
    i = n % ncb ∧ PhaseOK (n / ncb) e ∧
      (e = .afterRun → (A.exec env main ncb fuel).2.events.length ≤ (n / ncb + 1) * ncb) ∧
      ∀ m j e', (A.exec env main ncb fuel).2.events[m]? = some (j, e') → n / ncb = m / ncb → e = e' := by
  have hl := C28_callback_log hA.verified env False (metBy_assumed _ _ _ _ (Or.inr id)) main ncb fuel
  refine ⟨(hl.order n i e h).1, (hl.order n i e h).2, fun he => ?_, fun m j e' h' hnm => hl.same n m i j e e' h h' hnm⟩
  subst he
  exact hl.last n i h

/-- C18: in a run that returns a solution every callback has seen `before_run`, then two events for every iteration
counted by the task, then `after_run`. -/
theorem C18_count (hA : Covered opt B A k s t a i K) (env : Env (Vec D)) (main : Bool) (ncb fuel : ℕ) (out : RunOut (Vec D))
    (res : Vec D × Fl) (hrun : (A.exec env main ncb fuel).1 = .ok out) (hres : out.result = some res) :
    (A.exec env main ncb fuel).2.events.length = (2 * (A.exec env main ncb fuel).2.st.iters + 2) * ncb := by
  rw [exec_eq] at hrun ⊢
  simp only at hrun ⊢
  split at hrun
  · rename_i r hr
    obtain ⟨hist, w, ht, hs, hf⟩ := body_trace hr
    have hst := fireAll_st env ncb .afterRun w
    have hc := (hA.verified.trace_count env (metBy_assumed _ _ _ _ (Or.inr id)) ht).2
    have hev := fireAll_events _ _ _ _ _ _ hf
    rw [hf] at hst
    simp only at hst
    rw [hev, hst, hc]
    ring
  · split at hrun
    · cases hrun
    · cases hrun; cases hres

/-! ## C20 -/

/-- C20: the fitness returned by a run is a value the objective returned, in the sign of the objective; `+inf` (`-inf` when
maximizing) if nothing was evaluated. -/
theorem C20_sign (hA : Covered opt B A k s t a i K) (env : Env (Vec D)) (main : Bool) (ncb fuel : ℕ) (out : RunOut (Vec D))
    (x : Vec D) (f : Fl) (hrun : (A.exec env main ncb fuel).1 = .ok out) (hres : out.result = some (x, f)) :
    f ∈ values (A.exec env main ncb fuel).2.calls ∨ (env.opt = .minimization ∧ f = .pinf) ∨ (env.opt = .maximization ∧ f = .ninf) := by
  rcases C27_solution_fitness hA.verified env (metBy_assumed _ _ _ _ (Or.inr id)) main ncb fuel out x f hrun hres with h | h
  · left
    simp only [values, List.mem_filterMap]
    exact ⟨_, h, rfl⟩
  · right
    cases ho : env.opt with
    | minimization => left; rw [h, ho]; exact ⟨rfl, rfl⟩
    | maximization => right; rw [h, ho]; exact ⟨rfl, rfl⟩

/-! ## C25–C29 -/

/-- C25: every solution passed to the objective, in any run (also one that raises), is within the bounds, if the repair
function puts its argument within the bounds (for the algorithms marked so). -/
theorem C25_all_feasible (hA : Covered opt B A k s t a true K) (env : Env (Vec D)) (hR : ∀ rng k x, B.NotOut (env.repairFn rng k x))
    (main : Bool) (ncb fuel : ℕ) : ∀ c ∈ (A.exec env main ncb fuel).2.calls, B.NotOut c.1 :=
  C25_feasible hA.verified env B.NotOut (metBy_assumed_notOut _ _ _ (Or.inr id)) (fun _ h => h.notOut) hR main ncb fuel

/-- C26: the fitness returned is `task.x_f`, the best value the objective has returned. -/
theorem C26_all_best (hA : Covered opt B A true s t a i K) (env : Env (Vec D)) (hnn : NoNaN env) (main : Bool) (ncb fuel : ℕ)
    (out : RunOut (Vec D)) (x : Vec D) (f : Fl) (hrun : (A.exec env main ncb fuel).1 = .ok out) (hres : out.result = some (x, f)) :
    f = (A.exec env main ncb fuel).2.st.xf ∧ BestOf env.opt (values (A.exec env main ncb fuel).2.calls) f :=
  C26_returned_is_best hA.verified env (metBy_assumed _ _ _ _ (Or.inl rfl)) hnn main ncb fuel out x f hrun hres

/-- C27: the solution returned was evaluated and the fitness returned with it is what the objective returned for it. -/
theorem C27_all_solution (hA : Covered opt B A k s t a i K) (env : Env (Vec D)) (main : Bool) (ncb fuel : ℕ) (out : RunOut (Vec D))
    (x : Vec D) (f : Fl) (hrun : (A.exec env main ncb fuel).1 = .ok out) (hres : out.result = some (x, f)) :
    (x, .ok f) ∈ (A.exec env main ncb fuel).2.calls ∨ f = env.opt.mul .pinf :=
  C27_solution_fitness hA.verified env (metBy_assumed _ _ _ _ (Or.inr id)) main ncb fuel out x f hrun hres

/-- C28: in everything shown to callbacks, the best fitness is what an evaluation of the best solution beside it returned (in
the internal sign), or `+inf`; the same holds of every individual of the population, for the algorithms marked so. -/
theorem C28_all_aligned (hA : Covered opt B A k s t a i K) (env : Env (Vec D)) (main : Bool) (ncb fuel : ℕ) :
    ∀ e ∈ (A.exec env main ncb fuel).2.events, EventAligned (FitOK env.opt (A.exec env main ncb fuel).2.calls) (a = true) e.2 :=
  (C28_callback_log hA.verified env False (metBy_assumed _ _ _ _ (Or.inr id)) main ncb fuel).aligned

/-- C29: the best fitness shown to callbacks never gets worse, and it is never worse than that of the population shown with
it (for the algorithms whose fitness values belong to their individuals). -/
theorem C29_all_monotone (hA : Covered opt B A true s t a i K) (env : Env (Vec D)) (hnn : NoNaN env) (main : Bool) (ncb fuel : ℕ) :
    ((A.exec env main ncb fuel).2.events.Pairwise fun a b => ∀ u v, a.2.best = some u → b.2.best = some v → v ≤ u) ∧
    (a = true → ∀ e ∈ (A.exec env main ncb fuel).2.events, EventDom e.2) :=
  have h := C28_callback_log hA.verified env True (metBy_assumed _ _ _ _ (Or.inl rfl)) main ncb fuel
  ⟨h.mono ⟨trivial, hnn⟩, h.dom ⟨trivial, hnn⟩⟩

/-! ## C58 -/

/-- Algorithms that may lose the best solution they evaluate, but not the best one of the populations they show. -/
inductive Dominating (B : Box D) : Alg (Vec D) → Prop
  | hho (N levy) : Dominating B (HHO.alg B N levy)
  | mbo (N p) : Dominating B (MBO.alg B N p)
  | ca (opt N p) : Dominating B (CA.alg opt B N p)
  | cso (N p) : Dominating B (CSO.alg B N p)
  | mshoa (N p) : Dominating B (MSHOA.alg B N p)
  | loa (opt N p) : Dominating B (LOA.alg opt B N p)

theorem Dominating.dominates (h : Dominating B A) : Dominates A := by
  cases h with
  | hho N levy => exact HHO.dominates B N levy
  | mbo N p => exact MBO.dominates B N p
  | ca opt N p => exact CA.dominates opt B N p
  | cso N p => exact CSO.dominates B N p
  | mshoa N p => exact MSHOA.dominates B N p
  | loa opt N p => exact LOA.dominates opt B N p

/-- C58, what remains true: the incumbents after successive rounds never get worse, for any objective. -/
theorem C58_monotone_partial (h : Dominating B A) (env : Env (Vec D)) {ncb : ℕ} {hist : List (A.σ × Vec D × Fl)} {w : World (Vec D)}
    (ht : A.Trace env ncb hist w) : hist.Pairwise fun r' r => r'.2.2 = r.2.2 ∨ r'.2.2 ≤ r.2.2 := h.dominates.monotone ht

/-- C58, what remains true: the incumbent is at least as good as every individual of every population after an iteration so
far. -/
theorem C58_shown_partial (h : Dominating B A) (hA : Covered opt B A k s t true i K) (env : Env (Vec D)) (hnn : NoNaN env) {ncb : ℕ}
    {r : A.σ × Vec D × Fl} {hist : List (A.σ × Vec D × Fl)} {w : World (Vec D)} (ht : A.Trace env ncb (r :: hist) w) :
    ∀ q ∈ r :: hist, ∀ f ∈ A.fit q.1, r.2.2 ≤ f :=
  h.dominates.shown (hA.verified.imp (al' := True) (fun _ h => h) (fun _ h => h) fun _ => rfl) env
    (metBy_assumed _ _ _ _ (Or.inr id)) hnn ht

/-! ## C30 -/

/-- C30: the number of evaluations of a run lies between the bounds given in `Covered`; the lower bound as long as neither
`max_evals` nor the cutoff value has been reached. -/
theorem C30_all_bounds (hA : Covered opt B A k s t a i K) (env : Env (Vec D)) (main : Bool) (ncb fuel : ℕ) (out : RunOut (Vec D))
    (res : Vec D × Fl) (hrun : (A.exec env main ncb fuel).1 = .ok out) (hres : out.result = some res) (hmi : env.maxIters ≠ some 0) :
    let fin := (A.exec env main ncb fuel).2
    (∀ h, K.hi = some h → fin.calls.length ≤ K.init + fin.st.iters * h) ∧
    (¬ Spent env fin.st → K.init + fin.st.iters * K.lo ≤ fin.calls.length) :=
  C30_evaluations hA.verified env (metBy_assumed _ _ _ _ (Or.inr id)) main ncb fuel out res hrun hres hmi

/-- C30: an algorithm that evaluates `n` solutions per iteration and `init` at the start makes exactly `init + T * n`
evaluations in a run limited only by `max_iters = T`. -/
theorem C30_exact {init n : ℕ} (hA : Covered opt B A k s true a i (.exact init n)) (env : Env (Vec D)) (hE : NoFuelError env) (T : ℕ)
    (hT : env.maxIters = some T) (hpos : T ≠ 0) (hme : env.maxEvals = none) (main : Bool) (ncb fuel : ℕ) (hfuel : T < fuel)
    (out : RunOut (Vec D)) (res : Vec D × Fl) (hrun : (A.exec env main ncb fuel).1 = .ok out) (hres : out.result = some res)
    (hcut : ¬ env.opt.mul (A.exec env main ncb fuel).2.st.xf ≤ env.opt.mul env.cutoff) :
    (A.exec env main ncb fuel).2.calls.length = init + T * n := by
  have hns : ¬ Spent env (A.exec env main ncb fuel).2.st := by
    rintro (h | h)
    · simp [hme, reached] at h
    · exact hcut h
  have h := C30_all_bounds hA env main ncb fuel out res hrun hres (by simp [hT, hpos])
  have hle := (C17_max_iters hA env hE T hT main ncb fuel hfuel).2
  have hst := C17_stopped A env main ncb fuel out res hrun hres
  have hit : (A.exec env main ncb fuel).2.st.iters = T := by
    simp only [stoppingCondition, hT, hme, reached, Bool.or_eq_true, decide_eq_true_eq] at hst
    rcases hst with h | h
    · simp at h; omega
    · exact absurd h hcut
  have h1 := h.1 n rfl
  have h2 := h.2 hns
  rw [hit] at h1 h2
  exact le_antisymm h1 h2

/-! ## C31 -/

/-- C31: with the algorithms that pass their generator on to `task.repair`, a run with a given seed does not depend on
the operating system's entropy: result, evaluated points and callback events are the same. -/
theorem C31_all_seeded (hA : Covered opt B A k true t a i K) (env : Env (Vec D)) (r : Rng) (main : Bool) (ncb fuel : ℕ) :
    A.exec (env.withEntropy r) main ncb fuel = A.exec env main ncb fuel :=
  C31_reproducible hA.verified env (metBy_assumed _ _ _ _ (Or.inr id)) r main ncb fuel

/-- C31, for any algorithm: if the repair function of the task does not use its generator (as `limit`, `limit_inverse`,
`wang` and `reflect`), the run depends on the seed only. -/
theorem C31_deterministic_repair (A : Alg X) (env : Env X) (hrep : ∀ r r' k k' x, env.repairFn r k x = env.repairFn r' k' x)
    (r : Rng) (main : Bool) (ncb fuel : ℕ) : A.exec (env.withEntropy r) main ncb fuel = A.exec env main ncb fuel := by
  have key : ∀ {α : Type} (p : Prog X α) (w : World X), p.run (env.withEntropy r) w = p.run env w := by
    intro α p
    induction p with
    | pure a => intro w; rfl
    | throw e => intro w; rfl
    | op o k ih =>
      intro w
      have hst : stepOp (env.withEntropy r) w o = stepOp env w o := by
        cases o with
        | repair s x =>
          cases s with
          | true => rfl
          | false =>
            simp only [stepOp, Env.withEntropy]
            rw [hrep r env.entropy w.ek w.ek x]
        | _ => rfl
      simp only [Prog.run, hst]
      exact ih _ _
  exact key _ _

/-- A generator whose uniform numbers are all `q` (if possible). -/
def Ex.constDraws (q : ℚ) : Ex.Draws := { Ex.draws with unif := fun _ => q }

/-- The bat algorithm with pulse rate 1 on the box `[-2, 2]`, repairing with `rand`. -/
def Ex.baEnv (q : ℚ) : Env (Vec 1) :=
  { Ex.env Ex.sphere .minimization none (some 1) none Ex.draws (fun rng k x => Repair.rand (Ex.box 1) rng k x) with
    entropy := (Ex.constDraws q).rng }

/-- C31 is false of the algorithms that do not pass their generator on: the bat algorithm with the repair function
`rand`, run twice with the same seed, evaluates different solutions (ba.py:165). -/
theorem C31_unseeded_false : ∃ (D : ℕ) (B : Box D) (A : Alg (Vec D)) (env : Env (Vec D)) (r : Rng),
    @Covered Ex.arith D .minimization B A true false true true true (.exact 2 2) ∧
    ((A.exec env true 0 3).2.calls.map fun c => List.ofFn c.1) ≠
      ((A.exec (env.withEntropy r) true 0 3).2.calls.map fun c => List.ofFn c.1) :=
  ⟨1, Ex.box 1, @BA.alg Ex.arith 1 (Ex.box 1) 2 ⟨.fin 400, .fin 1, .fin 1, .fin 0, .fin 0, .fin 2⟩, Ex.baEnv 1, (Ex.constDraws (-1)).rng,
    @Covered.ba Ex.arith 1 _ _ _ _, by decide +kernel⟩

/-! ## The hypotheses are satisfiable -/

theorem Alg.okIters_exec {A : Alg X} {env : Env X} {ncb fuel n : ℕ} (h : A.okIters env ncb fuel = some n) (main : Bool) :
    ∃ out x f, (A.exec env main ncb fuel).1 = .ok out ∧ out.result = some (x, f) ∧ (A.exec env main ncb fuel).2.st.iters = n := by
  unfold Alg.okIters at h
  split at h
  · rename_i r w heq
    cases h
    exact ⟨_, _, _, by rw [exec_eq, heq], rfl, by rw [exec_eq, heq]⟩
  · cases h

/-- Cuckoo search with three nests on the box `[-2, 2]`, for two iterations with clipping as repair function. -/
def Ex.cs : Alg (Vec 1) := @CS.alg Ex.arith 1 (Ex.box 1) 3 (.fin (1 / 4))

theorem Ex.cs_covered : @Covered Ex.arith 1 .minimization (Ex.box 1) Ex.cs true true true true true (.exact 3 6) := @Covered.cs Ex.arith 1 _ _ 3 _

theorem Ex.cs_run : Ex.cs.okIters Ex.env2 2 5 = some 2 := by decide +kernel

theorem Ex.env2_repair {D : ℕ} (rng : Rng) (k : ℕ) (x : Vec D) : (Ex.box D).NotOut ((Ex.env2 (D := D)).repairFn rng k x) := fun i => by
  change ¬ Ex.clip1 (x i) < .fin (-2) ∧ ¬ .fin 2 < Ex.clip1 (x i)
  cases x i <;> simp [Ex.clip1] <;> grind

/-- The hypotheses of C17, C18, C20, C25–C30 hold of a concrete run with two callbacks. -/
example : ∃ out x f, (Ex.cs.exec Ex.env2 true 2 5).1 = .ok out ∧ out.result = some (x, f) ∧
    (Ex.cs.exec Ex.env2 true 2 5).2.st.iters = 2 ∧ NoNaN (Ex.env2 (D := 1)) ∧ NoFuelError (Ex.env2 (D := 1)) ∧
    (∀ rng k x, (Ex.box 1).NotOut ((Ex.env2 (D := 1)).repairFn rng k x)) ∧
    (Ex.cs.exec Ex.env2 true 2 5).2.calls.length = 3 + 2 * 6 ∧
    (Ex.cs.exec Ex.env2 true 2 5).2.events.length = 6 * 2 := by
  obtain ⟨out, x, f, h1, h2, h3⟩ := Alg.okIters_exec Ex.cs_run true
  letI := Ex.arith
  refine ⟨out, x, f, h1, h2, h3, Ex.env2_noNaN _ _, Ex.env2_clean _ _, Ex.env2_repair, ?_, ?_⟩
  · refine C30_exact Ex.cs_covered Ex.env2 (Ex.env2_clean _ _) 2 rfl (by decide) rfl true 2 5 (by decide) out _ h1 h2 ?_
    decide +kernel
  · rw [C18_count Ex.cs_covered Ex.env2 true 2 5 out _ h1 h2, h3]

end NiaPy
