import Verif.Longer
import Verif.Summary
import Verif.Algo.RS
import Verif.Algo.HDE
import Verif.Algo.DynFWA

/-!
# C97: algorithms whose longer runs continue the shorter ones
-/

namespace NiaPy
variable [Arith] {X : Type} {D : ℕ} {opt : OptType} {B : Box D} {ke ki : Bool}

section
variable {N : ℕ}

/-! ### Programs that recur -/

theorem Prog.Deaf.integersSkip {lo n : ℕ} {skip : List ℕ} {fuel : ℕ} : (NiaPy.integersSkip lo n skip fuel : Prog X ℕ).Deaf ke ki := by
  induction fuel with
  | zero => exact .throw'
  | succ fuel ih => unfold NiaPy.integersSkip; deaf

theorem ABC.neighbor_deaf {i : Fin (N / 2)} {fuel : ℕ} : (ABC.neighbor i fuel : Prog (Vec D) _).Deaf ke ki := by
  induction fuel with
  | zero => exact .throw'
  | succ fuel ih => unfold ABC.neighbor; deaf

theorem ABC.onlookers_deaf {limit fuel0 : ℕ} {prob : Fin (N / 2) → Fl} {last : Fin (N / 2)} {fuel t : ℕ} {i : Fin (N / 2)} {s : ABC.Loc D N} :
    (ABC.onlookers opt B limit fuel0 prob last fuel t i s).Deaf ke ki := by
  induction fuel generalizing t i s with
  | zero => exact .throw'
  | succ fuel ih => unfold ABC.onlookers; deaf

theorem BFO.swim_deaf {p : BFO.Par} {dir : Vec D} {i : ℕ} {last : Fl} {n : ℕ} {s : BFO.Loc D} : (BFO.swim p dir i last n s).Deaf ke ki := by
  induction n generalizing s with
  | zero => unfold BFO.swim; deaf
  | succ n ih => unfold BFO.swim; deaf

theorem GA.otherLoop_deaf {ic io : Fin N} {fuel : ℕ} : (GA.otherLoop ic fuel io : Prog (Vec D) _).Deaf ke ki := by
  induction fuel generalizing io with
  | zero => unfold GA.otherLoop; deaf
  | succ n ih => unfold GA.otherLoop; deaf

theorem SHADE.cauchy_deaf {a b : Fl} {n : ℕ} : (SHADE.cauchy a b n : Prog (Vec D) _).Deaf ke ki := by
  induction n with
  | zero => exact .throw'
  | succ n ih => unfold SHADE.cauchy; deaf

theorem HC.climb_deaf {delta : Fl} {x : Vec D} {n : ℕ} {b : Vec D × Fl} : (HC.climb delta x n b).Deaf ke ki := by
  induction n generalizing b with
  | zero => exact .throw'
  | succ n ih => unfold HC.climb; deaf

theorem RS.fresh_deaf {l : List (Vec D)} {n : ℕ} : (RS.fresh B l n).Deaf ke ki := by
  induction n with
  | zero => exact .throw'
  | succ n ih => unfold RS.fresh; deaf

theorem MTS.ls3v1Loop_deaf {b1 b2 : Fl} {n : ℕ} {d : Vec D} {s : MTS.LS D} : (MTS.ls3v1Loop B b1 b2 n d s).Deaf ke ki := by
  induction n generalizing d s with
  | zero => unfold MTS.ls3v1Loop; deaf
  | succ n ih => unfold MTS.ls3v1Loop; deaf

theorem MTS.Search.run_deaf {b1 b2 : Fl} {k : MTS.Search} {s : MTS.LS D} : (k.run B b1 b2 s).Deaf ke ki := by
  cases k with
  | ls1 => show Prog.Deaf _ _ (MTS.ls1 B b1 b2 s); deaf
  | ls1v1 => show Prog.Deaf _ _ (MTS.ls1v1 B b1 b2 s); deaf
  | ls2 => show Prog.Deaf _ _ (MTS.ls2 B b1 b2 s); deaf
  | ls3 => show Prog.Deaf _ _ (MTS.ls3 b1 b2 s); deaf
  | ls3v1 n => show Prog.Deaf _ _ (MTS.ls3v1 B n b1 b2 s); deaf

theorem HDE.turns_deaf {p : MTS.Par} {l : List (HDE.Ind D)} {xb : Vec D} {fxb : Fl} : (HDE.turns B p l xb fxb).Deaf ke ki := by
  induction l generalizing xb fxb with
  | nil => exact .pure'
  | cons e l ih =>
    have h : (HDE.turn B p e xb fxb).Deaf ke ki := by deaf
    unfold HDE.turns
    exact .bind' h fun a => .bind' ih fun r => .pure'

/-! ### Parts of the larger algorithms -/

namespace ASO
variable {f cr mc ms mp : Fl} {x xpb xb xr : Vec D}
theorem mask_deaf {s : Prop} [Decidable s] : Prog.Deaf ke ki (mask s cr : Prog (Vec D) _) := by unfold mask; deaf
theorem mpC_deaf : Prog.Deaf ke ki (mpC x f cr mp) := by unfold mpC; deaf
theorem mpS_deaf : Prog.Deaf ke ki (mpS x xr xb cr mp) := by unfold mpS; deaf
theorem mpP_deaf : Prog.Deaf ke ki (mpP x xpb cr mp) := by unfold mpP; deaf
theorem candidates_deaf : Prog.Deaf ke ki (candidates f cr x xpb xb xr mc ms mp) := by unfold candidates; deaf
theorem combine_deaf {c : Comb} : Prog.Deaf ke ki (combine c f cr x xpb xb xr mc ms mp) := by unfold combine; deaf
end ASO

namespace CRO
variable {p f : Fl} {x xb : Vec D} {fxb : Fl} {q : Par} {r : List (Vec D × Fl)}
theorem crossover_deaf {n : ℕ} {pop : Fin n → Vec D} : Prog.Deaf ke ki (crossover p pop) := by unfold crossover; deaf
theorem brood_deaf : Prog.Deaf ke ki (brood B p x) := by unfold brood; deaf
theorem move_deaf : Prog.Deaf ke ki (move p f x) := by unfold move; deaf
theorem brooding_deaf {l : List (Vec D)} : Prog.Deaf ke ki (brooding B p l) := by unfold brooding; deaf
theorem update_deaf {l : List (Vec D)} {a : List (Vec D × Fl) × Vec D × Fl} : Prog.Deaf ke ki (update q l a) := by unfold update; deaf
theorem settling_deaf {l : List (Vec D × Fl)} : Prog.Deaf ke ki (settling q r l xb fxb) := by unfold settling; deaf
theorem asexual_deaf : Prog.Deaf ke ki (asexual B q r xb fxb) := by unfold asexual; deaf
theorem depredation_deaf : Prog.Deaf ke ki (depredation q r) := by unfold depredation; deaf
theorem finish_deaf : Prog.Deaf ke ki (finish q r) := by unfold finish; deaf
end CRO

namespace LOA
variable {l : Lion D} {heap : ℕ → Lion D} {h : Herd D} {p : Par} {P k : ℕ} {pride : List ℕ} {x y : Vec D} {a b : Fl} {ex : Excess}
theorem forPrides_deaf {f : ℕ → List ℕ → (ℕ → Lion D) → Prog (Vec D) (ℕ → Lion D)} (hf : ∀ i l s, (f i l s).Deaf ke ki) : (forPrides P h f).Deaf ke ki := by
  unfold forPrides
  exact .bind' (.forList fun i s => .bind' (hf _ _ _) fun _ => .pure') fun _ => .pure'
theorem Lion.goto_deaf : Prog.Deaf ke ki (l.goto y) := by unfold Lion.goto; deaf
theorem moveHunter_deaf {i j k : ℕ} : Prog.Deaf ke ki (moveHunter l x i j k) := by unfold moveHunter; deaf
theorem updatePrey_deaf : Prog.Deaf ke ki (updatePrey l x) := by unfold updatePrey; deaf
theorem gather_deaf : Prog.Deaf ke ki (gather pride heap) := by unfold gather; deaf
theorem hunt_deaf : Prog.Deaf ke ki (hunt pride heap) := by unfold hunt; deaf
theorem hunting_deaf : Prog.Deaf ke ki (hunting P h) := by unfold hunting; deaf
theorem winner_deaf : Prog.Deaf ke ki (winner heap pride) := by unfold winner; deaf
theorem ortho_deaf : Prog.Deaf ke ki (ortho x) := by unfold ortho; deaf
theorem safer_deaf : Prog.Deaf ke ki (safer a x l) := by unfold safer; deaf
theorem moveToSafePlace_deaf : Prog.Deaf ke ki (moveToSafePlace B P h) := by unfold moveToSafePlace; deaf
theorem roam_deaf : Prog.Deaf ke ki (roam a x l) := by unfold roam; deaf
theorem wander_deaf : Prog.Deaf ke ki (wander B a l) := by unfold wander; deaf
theorem roamMale_deaf : Prog.Deaf ke ki (roamMale a pride b k heap) := by unfold roamMale; deaf
theorem roaming_deaf : Prog.Deaf ke ki (roaming B p h) := by unfold roaming; deaf
theorem offspring_deaf : Prog.Deaf ke ki (offspring B p heap k pride P) := by unfold offspring; deaf
theorem cubs_deaf : Prog.Deaf ke ki (cubs B p h pride k) := by unfold cubs; deaf
theorem matePride_deaf {m : Mating D} : Prog.Deaf ke ki (matePride B p k m) := by unfold matePride; deaf
theorem mating_deaf : Prog.Deaf ke ki (mating B p h) := by unfold mating; deaf
theorem sortLions_deaf {d : Bool} : Prog.Deaf ke ki (sortLions heap d pride) := by unfold sortLions; deaf
theorem expel_deaf : Prog.Deaf ke ki (expel P h ex) := by unfold expel; deaf
theorem attacks_deaf : Prog.Deaf ke ki (attacks P h) := by unfold attacks; deaf
theorem defense_deaf : Prog.Deaf ke ki (defense P h ex) := by unfold defense; deaf
theorem migrants_deaf {m n : ℤ} : Prog.Deaf ke ki (migrants p m n pride : Prog (Vec D) _) := by unfold migrants; deaf
theorem migrateFemales_deaf : Prog.Deaf ke ki (migrateFemales p h ex) := by unfold migrateFemales; deaf
theorem migration_deaf : Prog.Deaf ke ki (migration p h ex) := by unfold migration; deaf
theorem equilibrium_deaf : Prog.Deaf ke ki (equilibrium P h ex) := by unfold equilibrium; deaf
end LOA
end

/-! ### The algorithms -/

/-- A mutation strategy of differential evolution does not depend on the limits of the task. -/
def DE.DeafStrategy (strat : DE.Strategy D) : Prop := ∀ {n : ℕ} (pop : Fin n → Vec D) ic f cr xb, (strat pop ic f cr xb).Deaf false false

theorem DE.DeafStrategy.std (k : ℕ) (mutant : {n : ℕ} → (Fin n → Vec D) → Fin n → (Fin k → Fin n) → Fl → Vec D → Vec D) : DE.DeafStrategy (DE.strategy k mutant) := by
  intro n pop ic f cr xb
  unfold DE.strategy DE.parents DE.binomial
  deaf

theorem DE.DeafStrategy.run {strat : DE.Strategy D} (h : DE.DeafStrategy strat) {n : ℕ} {pop : Fin n → Vec D} {ic : Fin n} {f cr : Fl} {xb : Vec D} :
    (strat pop ic f cr xb).Deaf ke ki := (h _ _ _ _ _).mono nofun nofun
macro_rules | `(tactic| deaf_step) => `(tactic| exact DE.DeafStrategy.run (by assumption))
macro_rules | `(tactic| deaf_step) => `(tactic| exact DE.DeafStrategy.run (‹∀ s ∈ _, DE.DeafStrategy s› _ (by assumption)))
macro_rules | `(tactic| deaf_step) => `(tactic| (refine absurd (a := false = true) ?_ (by decide); assumption))

theorem HS.bw_deaf {b : Fl} : Prog.Deaf ke ki (HS.bw (.plain b) : Prog (Vec D) _) := .bind' .unif fun _ => .pure'

/-- The algorithms that can be configured in the library. `ke`: the algorithm reads `task.max_evals`; `ki`: it reads `task.max_iters`. -/
inductive Steady (opt : OptType) (B : Box D) : Alg (Vec D) → Bool → Bool → Prop
  | ba (N p) : Steady opt B (BA.alg B N p) false false
  | abc (N limit fuel) : Steady opt B (ABC.alg opt B N limit fuel) false false
  | bea (N p) : Steady opt B (BEA.alg B N p) false false
  | bfo (N p k0 j0) : Steady opt B (BFO.alg B N p k0 j0) false false
  | cs (N pa) : Steady opt B (CS.alg B N pa) false false
  | fpa (N p) : Steady opt B (FPA.alg B N p) false false
  | fa (N p) : Steady opt B (FA.alg B N p) false false
  | gsa (N p) : Steady opt B (GSA.alg B N p) false false
  | gwo (N) : Steady opt B (GWO.alg B N) true false
  | gso (N p) : Steady opt B (GSO.alg B N p) false false
  | ga (N p fuel) : Steady opt B (GA.alg opt B N p fuel) false false
  | foa (N p) : Steady opt B (FOA.alg B N p) false false
  | fss (N p) : Steady opt B (FSS.alg opt B N p) false true
  | clonalg (b N p) : Steady opt B (CLONALG.alg B b N p) false false
  | de (N strat f cr) (hs : DE.DeafStrategy strat) : Steady opt B (DE.alg opt B N strat f cr) false false
  | deMulti (N strats f cr) (hs : ∀ s ∈ strats, DE.DeafStrategy s) : Steady opt B (DE.algMulti opt B N strats f cr) false false
  | deDyn (N strat f cr pMax rp) (hs : DE.DeafStrategy strat) : Steady opt B (DE.algDyn opt B N strat f cr pMax rp) true false
  | deDynMulti (N strats f cr pMax rp) (hs : ∀ s ∈ strats, DE.DeafStrategy s) : Steady opt B (DE.algDynMulti opt B N strats f cr pMax rp) true false
  | deAging (N strat f cr p age) (hs : DE.DeafStrategy strat) : Steady opt B (DE.algAging opt B N strat f cr p age) false false
  | es1 (p) : Steady opt B (ES.alg1 opt B p) false false
  | esL (p lam) : Steady opt B (ES.algL opt B p lam) false false
  | esM (mu lam) : Steady opt B (ES.algM opt B mu lam) false false
  | pso (N p u c m) : Steady opt B (PSO.alg B N p u c m) false false
  | ovcpso (N p) : Steady opt B (PSO.algO B N p) false true
  | clpso (N p) : Steady opt B (PSO.algC B N p) false true
  | sca (N p) : Steady opt B (SCA.alg B N p) false false
  | hs (N p) : Steady opt B (HS.alg B N p) false true
  | mfo (N) : Steady opt B (MFO.alg B N) false true
  | mke (N p v2) : Steady opt B (MKE.alg opt B N p v2) false false
  | mke3 (N fc n) : Steady opt B (MKE.alg3 B N fc n) false false
  | jde (N strat p) (hs : DE.DeafStrategy strat) : Steady opt B (JDE.alg opt B N strat p) false false
  | jdeMulti (N strats f cr) (hs : ∀ s ∈ strats, DE.DeafStrategy s) : Steady opt B (JDE.algMulti opt B N strats f cr) false false
  | shade (p) : Steady opt B (SHADE.alg opt B p) true false
  | sa (p) : Steady opt B (SA.alg B p) true false
  | hc (delta fuel) : Steady opt B (HC.alg B delta fuel) false false
  | hho (N levy) : Steady opt B (HHO.alg B N levy) false true
  | kh (N p) : Steady opt B (KH.alg B N p) false true
  | mbo (N p) : Steady opt B (MBO.alg B N p) false false
  | ca (N p) : Steady opt B (CA.alg opt B N p) false true
  | cso (N p) : Steady opt B (CSO.alg B N p) false false
  | bbfwa (p) : Steady opt B (FWA.bbAlg B p) false false
  | fwa (N p) : Steady opt B (FWA.alg B N p) false false
  | efwa (N p a0 a1) : Steady opt B (FWA.algE B N p a0 a1) true false
  | aba (N p) : Steady opt B (BAT.alg B N p) false false
  | saba (N p q) : Steady opt B (BAT.algS B N p q) false false
  | hsaba (N p q strat f cr) (hs : DE.DeafStrategy strat) : Steady opt B (BAT.algHS B N p q strat f cr) false false
  | hba (N p c f cr) (hs : DE.DeafStrategy c.run) : Steady opt B (BAT.algH B N p c f cr) false false
  | plba (N) : Steady opt B (BAT.algP B N) false false
  | nm (N p) : Steady opt B (NM.alg B N p) false false
  | aso (N p fuel) : Steady opt B (ASO.alg B N p fuel) false false
  | mshoa (N p) : Steady opt B (MSHOA.alg B N p) false false
  | mts (N p) : Steady opt B (MTS.alg B N p) false false
  | cro (N p) : Steady opt B (CRO.alg B N p) false false
  | loa (N p) : Steady opt B (LOA.alg opt B N p) false false
  | rs (fuel) : Steady opt B (RS.alg B fuel) true true
  | hsPlain (N r pa b) : Steady opt B (HS.alg B N ⟨r, pa, .plain b⟩) false false
  | saDelta (delta T dT) : Steady opt B (SA.alg B ⟨delta, T, dT, .delta⟩) false false
  | shadePlain (N arc pb H depth) : Steady opt B (SHADE.alg opt B ⟨N, arc, pb, H, false, none, depth⟩) false false
  | dynfwa (N p gauss up down) : Steady opt B (FWA.algD B N p gauss up down) false false
  | demts (N p strat f cr) (hs : DE.DeafStrategy strat) : Steady opt B (HDE.alg opt B N p strat f cr) false false
  | demtsMulti (N p strats f cr) (hs : ∀ s ∈ strats, DE.DeafStrategy s) : Steady opt B (HDE.algMulti opt B N p strats f cr) false false
  | demtsDyn (N p strat f cr pMax rp) (hs : DE.DeafStrategy strat) : Steady opt B (HDE.algDyn opt B N p strat f cr pMax rp) true false
  | demtsDynMulti (N p strats f cr pMax rp) (hs : ∀ s ∈ strats, DE.DeafStrategy s) : Steady opt B (HDE.algDynMulti opt B N p strats f cr pMax rp) true false

theorem Steady.ba_deaf (N p) : (BA.alg B N p).Deaf false false := by unfold BA.alg; deaf_alg
theorem Steady.abc_deaf (N limit fuel) : (ABC.alg opt B N limit fuel).Deaf false false := by unfold ABC.alg; deaf_alg
theorem Steady.bea_deaf (N p) : (BEA.alg B N p).Deaf false false := by unfold BEA.alg; deaf_alg
theorem Steady.bfo_deaf (N p k0 j0) : (BFO.alg B N p k0 j0).Deaf false false := by unfold BFO.alg; deaf_alg
theorem Steady.cs_deaf (N pa) : (CS.alg B N pa).Deaf false false := by unfold CS.alg; deaf_alg
theorem Steady.fpa_deaf (N p) : (FPA.alg B N p).Deaf false false := by unfold FPA.alg; deaf_alg
theorem Steady.fa_deaf (N p) : (FA.alg B N p).Deaf false false := by unfold FA.alg; deaf_alg
theorem Steady.gsa_deaf (N p) : (GSA.alg B N p).Deaf false false := by unfold GSA.alg; deaf_alg
theorem Steady.gwo_deaf (N) : (GWO.alg B N).Deaf true false := by unfold GWO.alg; deaf_alg
theorem Steady.gso_deaf (N p) : (GSO.alg B N p).Deaf false false := by unfold GSO.alg; deaf_alg
theorem Steady.ga_deaf (N p fuel) : (GA.alg opt B N p fuel).Deaf false false := by unfold GA.alg; deaf_alg
theorem Steady.foa_deaf (N p) : (FOA.alg B N p).Deaf false false := by unfold FOA.alg; deaf_alg
theorem Steady.fss_deaf (N p) : (FSS.alg opt B N p).Deaf false true := by unfold FSS.alg; deaf_alg
theorem Steady.clonalg_deaf (b N p) : (CLONALG.alg B b N p).Deaf false false := by unfold CLONALG.alg; deaf_alg
theorem Steady.de_deaf (N strat f cr) (hs : DE.DeafStrategy strat) : (DE.alg opt B N strat f cr).Deaf false false := by unfold DE.alg; deaf_alg
theorem Steady.deMulti_deaf (N strats f cr) (hs : ∀ s ∈ strats, DE.DeafStrategy s) : (DE.algMulti opt B N strats f cr).Deaf false false := by unfold DE.algMulti; deaf_alg
theorem Steady.deDyn_deaf (N strat f cr pMax rp) (hs : DE.DeafStrategy strat) : (DE.algDyn opt B N strat f cr pMax rp).Deaf true false := by unfold DE.algDyn; deaf_alg
theorem Steady.deDynMulti_deaf (N strats f cr pMax rp) (hs : ∀ s ∈ strats, DE.DeafStrategy s) : (DE.algDynMulti opt B N strats f cr pMax rp).Deaf true false := by unfold DE.algDynMulti; deaf_alg
theorem Steady.deAging_deaf (N strat f cr p age) (hs : DE.DeafStrategy strat) : (DE.algAging opt B N strat f cr p age).Deaf false false := by unfold DE.algAging; deaf_alg
theorem Steady.es1_deaf (p) : (ES.alg1 opt B p).Deaf false false := by unfold ES.alg1; deaf_alg
theorem Steady.esL_deaf (p lam) : (ES.algL opt B p lam).Deaf false false := by unfold ES.algL; deaf_alg
theorem Steady.esM_deaf (mu lam) : (ES.algM opt B mu lam).Deaf false false := by unfold ES.algM; deaf_alg
theorem Steady.pso_deaf (N p u c m) : (PSO.alg B N p u c m).Deaf false false := by unfold PSO.alg; deaf_alg
theorem Steady.ovcpso_deaf (N p) : (PSO.algO B N p).Deaf false true := by unfold PSO.algO; deaf_alg
theorem Steady.clpso_deaf (N p) : (PSO.algC B N p).Deaf false true := by unfold PSO.algC; deaf_alg
theorem Steady.sca_deaf (N p) : (SCA.alg B N p).Deaf false false := by unfold SCA.alg; deaf_alg
theorem Steady.hs_deaf (N p) : (HS.alg B N p).Deaf false true := by unfold HS.alg; deaf_alg
theorem Steady.mfo_deaf (N) : (MFO.alg B N).Deaf false true := by unfold MFO.alg; deaf_alg
theorem Steady.mke_deaf (N p v2) : (MKE.alg opt B N p v2).Deaf false false := by unfold MKE.alg; deaf_alg
theorem Steady.mke3_deaf (N fc n) : (MKE.alg3 B N fc n).Deaf false false := by unfold MKE.alg3; deaf_alg
theorem Steady.jde_deaf (N strat p) (hs : DE.DeafStrategy strat) : (JDE.alg opt B N strat p).Deaf false false := by unfold JDE.alg; deaf_alg
theorem Steady.jdeMulti_deaf (N strats f cr) (hs : ∀ s ∈ strats, DE.DeafStrategy s) : (JDE.algMulti opt B N strats f cr).Deaf false false := by unfold JDE.algMulti; deaf_alg
theorem Steady.shade_deaf (p) : (SHADE.alg opt B p).Deaf true false := by unfold SHADE.alg; deaf_alg
theorem Steady.sa_deaf (p) : (SA.alg B p).Deaf true false := by unfold SA.alg; deaf_alg
theorem Steady.hc_deaf (delta fuel) : (HC.alg B delta fuel).Deaf false false := by unfold HC.alg; deaf_alg
theorem Steady.hho_deaf (N levy) : (HHO.alg B N levy).Deaf false true := by unfold HHO.alg; deaf_alg
theorem Steady.kh_deaf (N p) : (KH.alg B N p).Deaf false true := by unfold KH.alg; deaf_alg
theorem Steady.mbo_deaf (N p) : (MBO.alg B N p).Deaf false false := by unfold MBO.alg; deaf_alg
theorem Steady.ca_deaf (N p) : (CA.alg opt B N p).Deaf false true := by unfold CA.alg; deaf_alg
theorem Steady.cso_deaf (N p) : (CSO.alg B N p).Deaf false false := by unfold CSO.alg; deaf_alg
theorem Steady.bbfwa_deaf (p) : (FWA.bbAlg B p).Deaf false false := by unfold FWA.bbAlg; deaf_alg
theorem Steady.fwa_deaf (N p) : (FWA.alg B N p).Deaf false false := by unfold FWA.alg; deaf_alg
theorem Steady.efwa_deaf (N p a0 a1) : (FWA.algE B N p a0 a1).Deaf true false := by unfold FWA.algE; deaf_alg
theorem Steady.aba_deaf (N p) : (BAT.alg B N p).Deaf false false := by unfold BAT.alg; deaf_alg
theorem Steady.saba_deaf (N p q) : (BAT.algS B N p q).Deaf false false := by unfold BAT.algS; deaf_alg
theorem Steady.hsaba_deaf (N p q strat f cr) (hs : DE.DeafStrategy strat) : (BAT.algHS B N p q strat f cr).Deaf false false := by unfold BAT.algHS; deaf_alg
theorem Steady.hba_deaf (N p c f cr) (hs : DE.DeafStrategy c.run) : (BAT.algH B N p c f cr).Deaf false false := by unfold BAT.algH; deaf_alg
theorem Steady.plba_deaf (N) : (BAT.algP B N).Deaf false false := by unfold BAT.algP; deaf_alg
theorem Steady.nm_deaf (N p) : (NM.alg B N p).Deaf false false := by unfold NM.alg; deaf_alg
theorem Steady.aso_deaf (N p fuel) : (ASO.alg B N p fuel).Deaf false false := by unfold ASO.alg; deaf_alg
theorem Steady.mshoa_deaf (N p) : (MSHOA.alg B N p).Deaf false false := by unfold MSHOA.alg; deaf_alg
theorem Steady.mts_deaf (N p) : (MTS.alg B N p).Deaf false false := by unfold MTS.alg; deaf_alg
theorem Steady.cro_deaf (N p) : (CRO.alg B N p).Deaf false false := by unfold CRO.alg; deaf_alg
theorem Steady.loa_deaf (N p) : (LOA.alg opt B N p).Deaf false false := by unfold LOA.alg; deaf_alg
theorem Steady.rs_deaf (fuel) : (RS.alg B fuel).Deaf true true := by unfold RS.alg; deaf_alg
theorem Steady.hsPlain_deaf (N r pa b) : (HS.alg B N ⟨r, pa, .plain b⟩).Deaf false false := by unfold HS.alg; deaf_alg
theorem Steady.saDelta_deaf (delta T dT) : (SA.alg B ⟨delta, T, dT, .delta⟩).Deaf false false := by unfold SA.alg; deaf_alg
theorem Steady.shadePlain_deaf (N arc pb H depth) : (SHADE.alg opt B ⟨N, arc, pb, H, false, none, depth⟩).Deaf false false := by unfold SHADE.alg; deaf_alg
theorem Steady.dynfwa_deaf (N p gauss up down) : (FWA.algD B N p gauss up down).Deaf false false := by unfold FWA.algD; deaf_alg
theorem Steady.demts_deaf (N p strat f cr) (hs : DE.DeafStrategy strat) : (HDE.alg opt B N p strat f cr).Deaf false false := by unfold HDE.alg; deaf_alg
theorem Steady.demtsMulti_deaf (N p strats f cr) (hs : ∀ s ∈ strats, DE.DeafStrategy s) : (HDE.algMulti opt B N p strats f cr).Deaf false false := by unfold HDE.algMulti; deaf_alg
theorem Steady.demtsDyn_deaf (N p strat f cr pMax rp) (hs : DE.DeafStrategy strat) : (HDE.algDyn opt B N p strat f cr pMax rp).Deaf true false := by unfold HDE.algDyn; deaf_alg
theorem Steady.demtsDynMulti_deaf (N p strats f cr pMax rp) (hs : ∀ s ∈ strats, DE.DeafStrategy s) : (HDE.algDynMulti opt B N p strats f cr pMax rp).Deaf true false := by unfold HDE.algDynMulti; deaf_alg

theorem Steady.deaf {A : Alg (Vec D)} (h : Steady opt B A ke ki) : A.Deaf ke ki := by
  cases h with
  | ba N p => exact ba_deaf N p
  | abc N limit fuel => exact abc_deaf N limit fuel
  | bea N p => exact bea_deaf N p
  | bfo N p k0 j0 => exact bfo_deaf N p k0 j0
  | cs N pa => exact cs_deaf N pa
  | fpa N p => exact fpa_deaf N p
  | fa N p => exact fa_deaf N p
  | gsa N p => exact gsa_deaf N p
  | gwo N => exact gwo_deaf N
  | gso N p => exact gso_deaf N p
  | ga N p fuel => exact ga_deaf N p fuel
  | foa N p => exact foa_deaf N p
  | fss N p => exact fss_deaf N p
  | clonalg b N p => exact clonalg_deaf b N p
  | de N strat f cr hs => exact de_deaf N strat f cr hs
  | deMulti N strats f cr hs => exact deMulti_deaf N strats f cr hs
  | deDyn N strat f cr pMax rp hs => exact deDyn_deaf N strat f cr pMax rp hs
  | deDynMulti N strats f cr pMax rp hs => exact deDynMulti_deaf N strats f cr pMax rp hs
  | deAging N strat f cr p age hs => exact deAging_deaf N strat f cr p age hs
  | es1 p => exact es1_deaf p
  | esL p lam => exact esL_deaf p lam
  | esM mu lam => exact esM_deaf mu lam
  | pso N p u c m => exact pso_deaf N p u c m
  | ovcpso N p => exact ovcpso_deaf N p
  | clpso N p => exact clpso_deaf N p
  | sca N p => exact sca_deaf N p
  | hs N p => exact hs_deaf N p
  | mfo N => exact mfo_deaf N
  | mke N p v2 => exact mke_deaf N p v2
  | mke3 N fc n => exact mke3_deaf N fc n
  | jde N strat p hs => exact jde_deaf N strat p hs
  | jdeMulti N strats f cr hs => exact jdeMulti_deaf N strats f cr hs
  | shade p => exact shade_deaf p
  | sa p => exact sa_deaf p
  | hc delta fuel => exact hc_deaf delta fuel
  | hho N levy => exact hho_deaf N levy
  | kh N p => exact kh_deaf N p
  | mbo N p => exact mbo_deaf N p
  | ca N p => exact ca_deaf N p
  | cso N p => exact cso_deaf N p
  | bbfwa p => exact bbfwa_deaf p
  | fwa N p => exact fwa_deaf N p
  | efwa N p a0 a1 => exact efwa_deaf N p a0 a1
  | aba N p => exact aba_deaf N p
  | saba N p q => exact saba_deaf N p q
  | hsaba N p q strat f cr hs => exact hsaba_deaf N p q strat f cr hs
  | hba N p c f cr hs => exact hba_deaf N p c f cr hs
  | plba N => exact plba_deaf N
  | nm N p => exact nm_deaf N p
  | aso N p fuel => exact aso_deaf N p fuel
  | mshoa N p => exact mshoa_deaf N p
  | mts N p => exact mts_deaf N p
  | cro N p => exact cro_deaf N p
  | loa N p => exact loa_deaf N p
  | rs fuel => exact rs_deaf fuel
  | hsPlain N r pa b => exact hsPlain_deaf N r pa b
  | saDelta delta T dT => exact saDelta_deaf delta T dT
  | shadePlain N arc pb H depth => exact shadePlain_deaf N arc pb H depth
  | dynfwa N p gauss up down => exact dynfwa_deaf N p gauss up down
  | demts N p strat f cr hs => exact demts_deaf N p strat f cr hs
  | demtsMulti N p strats f cr hs => exact demtsMulti_deaf N p strats f cr hs
  | demtsDyn N p strat f cr pMax rp hs => exact demtsDyn_deaf N p strat f cr pMax rp hs
  | demtsDynMulti N p strats f cr pMax rp hs => exact demtsDynMulti_deaf N p strats f cr pMax rp hs

/-! ## C97 -/

/-- **C97.** With the same seed, a run with larger limits (or a harder cutoff value) begins like the run with the smaller ones: the calls of the objective, with
what they returned, and the improvements in the convergence data are the first ones of the longer run. If the shorter run ends before its budget is used up
(returns or raises), the longer one is the same run. `max_evals` must be the same for algorithms that read it (`ke`), `max_iters` for those that read it (`ki`). -/
theorem C97 {A : Alg (Vec D)} (hA : Steady opt B A ke ki) {env env' : Env (Vec D)} (h : Longer ke ki env env') (main : Bool) (ncb fuel : ℕ) :
    (A.exec env main ncb fuel).2.calls <+: (A.exec env' main ncb fuel).2.calls ∧
      (A.exec env main ncb fuel).2.st.nEvals <+: (A.exec env' main ncb fuel).2.st.nEvals ∧
      (A.exec env main ncb fuel).2.st.fitnessEvals <+: (A.exec env' main ncb fuel).2.st.fitnessEvals ∧
      (stoppingCondition env.toTaskCfg (A.exec env main ncb fuel).2.st = true ∨ A.exec env' main ncb fuel = A.exec env main ncb fuel) :=
  have hg := hA.deaf.exec h main ncb fuel
  ⟨hg.1.calls, hg.1.nEvals, hg.1.fitness, hg.2⟩

/-- **C97.** The best value found with the larger budget is at least as good. -/
theorem C97_best {A : Alg (Vec D)} (hA : Steady opt B A ke ki) {env env' : Env (Vec D)} (h : Longer ke ki env env') (main : Bool) (ncb fuel : ℕ) :
    AtLeastAsGood env.opt (A.exec env' main ncb fuel).2.st.xf (A.exec env main ncb fuel).2.st.xf := by
  have hg := (hA.deaf.exec h main ncb fuel).1.calls
  have h1 : BestOf env.opt (values (A.exec env main ncb fuel).2.calls) (A.exec env main ncb fuel).2.st.xf := by
    rw [exec_eq]
    exact C03_xf_is_best env (A.body ncb fuel)
  have h2 : BestOf env'.opt (values (A.exec env' main ncb fuel).2.calls) (A.exec env' main ncb fuel).2.st.xf := by
    rw [exec_eq]
    exact C03_xf_is_best env' (A.body ncb fuel)
  rw [h.opt] at h2
  refine BestOf.mono (fun v hv => ?_) h1 h2
  obtain ⟨c, hc, hcv⟩ := List.mem_filterMap.mp hv
  exact List.mem_filterMap.mpr ⟨c, hg.subset hc, by rw [← hcv]⟩

/-- **C97.** What is returned with the larger budget is at least as good, for the algorithms that return the best point they evaluated. -/
theorem C97_result {A : Alg (Vec D)} (hA : Steady opt B A ke ki) {s t a i : Bool} {K : Cost} (hC : Covered opt B A true s t a i K)
    {env env' : Env (Vec D)} (h : Longer ke ki env env') (hnn : NoNaN env) (main : Bool) (ncb fuel : ℕ) (out out' : RunOut (Vec D)) (x x' : Vec D) (f f' : Fl)
    (hrun : (A.exec env main ncb fuel).1 = .ok out) (hrun' : (A.exec env' main ncb fuel).1 = .ok out') (hres : out.result = some (x, f))
    (hres' : out'.result = some (x', f')) : AtLeastAsGood env.opt f' f := by
  have hnn' : NoNaN env' := by
    intro k x r hr
    rw [h.obj] at hr
    exact hnn k x r hr
  rw [(C26_all_best hC env hnn main ncb fuel out x f hrun hres).1, (C26_all_best hC env' hnn' main ncb fuel out' x' f' hrun' hres').1]
  exact C97_best hA h main ncb fuel

/-- The hypotheses can be met: two and three iterations of cuckoo search, with more evaluations and different values in the longer run. -/
example : letI := Ex.arith; Steady .minimization (Ex.box 1) (CS.alg (Ex.box 1) 3 (.fin (1 / 4))) false false ∧
    Longer false false (Ex.env2 (D := 1) 2) (Ex.env2 3) ∧ NoNaN (Ex.env2 (D := 1) 2) ∧
    Covered .minimization (Ex.box 1) (CS.alg (Ex.box 1) 3 (.fin (1 / 4))) true true true true true (.exact 3 (2 * 3)) ∧
    ((CS.alg (Ex.box 1) 3 (.fin (1 / 4))).exec (Ex.env2 2) true 0 9).2.calls.length = 15 ∧
    ((CS.alg (Ex.box 1) 3 (.fin (1 / 4))).exec (Ex.env2 3) true 0 9).2.calls.length = 21 :=
  letI := Ex.arith
  ⟨.cs _ _, .iters (env := Ex.env2 2) (m := some 2) (m' := some 3) (reached_mono (by omega)) rfl, Ex.env2_noNaN _ _, .cs _ _, by decide +kernel, by decide +kernel⟩

/-- Runs with larger limits that do not continue the shorter one. -/
def Ex.Forks (A : Alg (Vec 1)) : Prop := ∃ env env' : Env (Vec 1), Longer false false env env' ∧ ¬ (A.exec env true 0 9).2.calls <+: (A.exec env' true 0 9).2.calls

theorem Ex.Forks.iters {A : Alg (Vec 1)} {m m' : ℕ} (hm : m ≤ m')
    (h : ¬ values (A.exec (Ex.env2 m) true 0 9).2.calls <+: values (A.exec (Ex.env2 m') true 0 9).2.calls) : Ex.Forks A :=
  ⟨Ex.env2 m, Ex.env2 m', .iters (env := Ex.env2 m) (m' := some m') (reached_mono hm) rfl, fun hp => h (hp.filterMap _)⟩

/-- **C97** does not hold of the Harris hawks: their energy depends on `max_iters`. -/
theorem HHO.C97_false : letI := Ex.arith; Ex.Forks (HHO.alg (Ex.box 1) 4 (.fin 1)) := letI := Ex.arith; .iters (m := 3) (m' := 4) (by omega) (by decide +kernel)

/-- **C97** does not hold of moth flame optimization: the number of flames depends on `max_iters`. -/
theorem MFO.C97_false : letI := Ex.arith; Ex.Forks (MFO.alg (Ex.box 1) 4) := letI := Ex.arith; .iters (m := 3) (m' := 4) (by omega) (by decide +kernel)

/-- **C97** does not hold of the camel algorithm: the endurance depends on `max_iters`. -/
theorem CA.C97_false : letI := Ex.arith; Ex.Forks (CA.alg .minimization (Ex.box 1) 4 CA.Ex.par) := letI := Ex.arith; .iters (m := 3) (m' := 4) (by omega) (by decide +kernel)

/-- **C97** does not hold of the fish school search: the step sizes depend on `max_iters`. -/
theorem FSS.C97_false : letI := Ex.arith;
    Ex.Forks (FSS.alg .minimization (Ex.box 1) 4 ⟨.fin (1 / 2), .fin (1 / 10), .fin (1 / 2), .fin (1 / 10), .fin 1, .fin 500⟩) :=
  letI := Ex.arith; .iters (m := 3) (m' := 4) (by omega) (by decide +kernel)

/-- **C97** does not hold of opposition-based velocity clamped particle swarm optimization: the inertia weight depends on `max_iters`. -/
theorem PSO.C97_ovcpso_false : letI := Ex.arith; Ex.Forks (PSO.algO (Ex.box 1) 3 ⟨PSO.exPar, .fin (1 / 2), .fin (4 / 10), .fin (9 / 10), .fin 1⟩) :=
  letI := Ex.arith; .iters (m := 2) (m' := 4) (by omega) (by decide +kernel)

/-- **C97** does not hold of the grey wolves, and more evaluations can give a worse result: the best value found with 8 evaluations is worse than that found
with 6 in the same task with the same seed. -/
theorem GWO.C97_false : letI := Ex.arith; Longer false false (Ex.env2 (D := 1) 30 (some 6)) (Ex.env2 30 (some 8)) ∧
    ¬ AtLeastAsGood .minimization ((GWO.alg (Ex.box 1) 4).exec (Ex.env2 30 (some 8)) true 0 9).2.st.xf
      ((GWO.alg (Ex.box 1) 4).exec (Ex.env2 30 (some 6)) true 0 9).2.st.xf :=
  letI := Ex.arith
  ⟨.evals (env := Ex.env2 30 (some 6)) (m := some 6) (m' := some 8) (reached_mono (by omega)) rfl, by decide +kernel⟩

end NiaPy
