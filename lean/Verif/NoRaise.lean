import Verif.SafeD
import Verif.Summary

/-!
# C71: runs do not raise

`Robust` lists algorithms together with the parameters they need; a run of one of them on a problem with finite bounds, an objective
function that always returns a number and callbacks that do not raise returns a solution.
-/

namespace NiaPy
variable [Arith] {D : ℕ}

/-- Algorithms whose runs end without an exception, with what they need of their parameters, and of the constants of the library
in floating-point numbers; and the number of evaluations. -/
inductive Robust (opt : OptType) (B : Box D) (env : Env (Vec D)) : Alg (Vec D) → Cost → Prop
  | ba (N p) (hN : 0 < N) : Robust opt B env (BA.alg B N p) (.exact N N)
  | bea (N p) (hN : 0 < N) (hD : 0 < D) (h1 : 1 ≤ p.m) (he : p.e ≤ p.m) (hm : p.m ≤ N) (hl : BEA.DecayLaw) (hn : ∃ q : ℚ, 0 ≤ q ∧ p.ngh = .fin q) :
      Robust opt B env (BEA.alg B N p) (.exact N (p.e * p.nep + (p.m - p.e) * p.nsp + (N - p.m)))
  | bfo (N p k0 j0) (hN : 0 < N) : Robust opt B env (BFO.alg B N p k0 j0) ⟨N, 2 * (N / 2), some (N * (p.nSwim + 2))⟩
  | cs (N pa) (hN : 0 < N) (hs : SigmaLaw) : Robust opt B env (CS.alg B N pa) (.exact N (2 * N))
  | fpa (N p) (hN : 2 ≤ N) (hs : SigmaLaw) : Robust opt B env (FPA.alg B N p) (.exact N N)
  | fa (N p) (hN : 0 < N) : Robust opt B env (FA.alg B N p) ⟨N, 0, some (N * N)⟩
  | gsa (N p) (hN : 0 < N) : Robust opt B env (GSA.alg B N p) (.exact N N)
  | gwo (N) (hN : 3 ≤ N) : Robust opt B env (GWO.alg B N) (.exact N N)
  | gso (N p) (hN : 0 < N) : Robust opt B env (GSO.alg B N p) (.exact N N)
  | ga (N p fuel) (hN : 0 < N) (hD : 0 < D) (hp : p.Valid B N) : Robust opt B env (GA.alg opt B N p fuel) (.exact N N)
  | foa (N p) (hN : 0 < N) (hp : p.Valid B) : Robust opt B env (FOA.alg B N p) ⟨N, 1, none⟩
  | fss (N p) (hN : 0 < N) : Robust opt B env (FSS.alg opt B N p) (.exact N (2 * N))
  | clonalg (b N p) (hN : 0 < N) (hp : 0 < p.numClones) : Robust opt B env (CLONALG.alg B b N p) (.exact N (N * p.numClones + p.numRand))
  | de (N strat f cr) (hN : 0 < N) (hs : DE.QuietStrategy strat) (hc : DE.Calls env strat) : Robust opt B env (DE.alg opt B N strat f cr) (.exact N N)
  | deMulti (N strats f cr) (hN : 0 < N) (hn : strats ≠ []) (hs : ∀ s ∈ strats, DE.QuietStrategy s)
      (hc : ∀ s : DE.Strategy D, (s : DE.Strategy D) ∈ strats → DE.Calls env s) :
      Robust opt B env (DE.algMulti opt B N strats f cr) (.exact N (N * strats.length))
  | deDyn (N strat f cr pMax rp) (hN : 0 < N) (hp : 0 < pMax) (hs : DE.QuietStrategy strat) (hc : DE.Calls env strat) :
      Robust opt B env (DE.algDyn opt B N strat f cr pMax rp) ⟨N, min N 2, some N⟩
  | deDynMulti (N strats f cr pMax rp) (hN : 0 < N) (hp : 0 < pMax) (hn : strats ≠ []) (hs : ∀ s ∈ strats, DE.QuietStrategy s)
      (hc : ∀ s : DE.Strategy D, (s : DE.Strategy D) ∈ strats → DE.Calls env s) :
      Robust opt B env (DE.algDynMulti opt B N strats f cr pMax rp) ⟨N, min N 2 * strats.length, some (N * strats.length)⟩
  | jde (N strat p) (hN : 0 < N) (hs : DE.QuietStrategy strat) (hc : DE.Calls env strat) : Robust opt B env (JDE.alg opt B N strat p) (.exact N N)
  | jdeMulti (N strats f cr) (hN : 0 < N) (hn : strats ≠ []) (hs : ∀ s ∈ strats, DE.QuietStrategy s)
      (hc : ∀ s : DE.Strategy D, (s : DE.Strategy D) ∈ strats → DE.Calls env s) :
      Robust opt B env (JDE.algMulti opt B N strats f cr) (.exact N (N * strats.length))
  | es1 (p) (hmu : 0 < p.mu) (hk : 0 < p.k) (hp : p.Steps) : Robust opt B env (ES.alg1 opt B p) (.exact 1 p.mu)
  | esL (p lam) (hmu : 0 < p.mu) (hk : 0 < p.k) (hp : p.Steps) : Robust opt B env (ES.algL opt B p lam) (.exact p.mu lam)
  | esM (mu lam) (hmu : 0 < mu) (hlam : 0 < lam) : Robust opt B env (ES.algM opt B mu lam) (.exact mu lam)
  | pso (N p u c m) (hN : 0 < N) : Robust opt B env (PSO.alg B N p u c m) (.exact N (N + c.toNat + m))
  | ovcpso (N p) (hN : 0 < N) : Robust opt B env (PSO.algO B N p) (.exact (2 * N) N)
  | clpso (N p) (hN : 2 ≤ N) : Robust opt B env (PSO.algC B N p) ⟨N, 0, some (2 * N)⟩
  | sca (N p) (hN : 0 < N) (hr : unifErr p.rMin p.rMax = none) (hpi : unifErr 0 (Fl.ofNat 2 * piF) = none) : Robust opt B env (SCA.alg B N p) (.exact N N)
  | hs (N p) (hN : 0 < N) : Robust opt B env (HS.alg B N p) (.exact N 1)
  | mke (N p v2) (hN : 0 < N) (hk : p.kings N ≤ N) (h1 : v2 = false → 0 < p.trials false D N) (h2 : v2 = true → 2 ≤ N) :
      Robust opt B env (MKE.alg opt B N p v2) (.exact N (p.kings N * p.trials v2 D N + (N - p.kings N)))
  | mke3 (N fc n) (hN : 0 < N) (hn : 0 < n) : Robust opt B env (MKE.alg3 B N fc n) (.exact N (n + N))
  | sa (p) (hsub : SubNeg) : Robust opt B env (SA.alg B p) (.exact 1 1)
  | hho (N levy) (hN : 0 < N) (hs : SigmaLaw) : Robust opt B env (HHO.alg B N levy) ⟨N, N, some (3 * N)⟩
  | kh (N p) (hN : 0 < N) : Robust opt B env (KH.alg B N p) (.exact N (N + 1))
  | mbo (N p) (hD : 2 ≤ D) (h1 : 2 ≤ p.np1) (h2 : p.np1 + 2 ≤ N) : Robust opt B env (MBO.alg B N p) (.exact N (2 * N))
  | ca (N p) (hN : 0 < N) (ht : unifErr p.minT p.maxT = none) : Robust opt B env (CA.alg opt B N p) ⟨N, 0, some (2 * N)⟩
  | cso (N p) (hN : 0 < N) (hv : unifErr (-p.maxV) p.maxV = none) (hc : 0 < p.smp) (ht : p.tracing N ≤ N) :
      Robust opt B env (CSO.alg B N p) (.exact N (p.cost N))
  | aba (N p) (hN : 0 < N) : Robust opt B env (BAT.alg B N p) (.exact N N)
  | saba (N p q) (hN : 0 < N) : Robust opt B env (BAT.algS B N p q) (.exact N N)
  | hsaba (N p q strat f cr) (hN : 0 < N) (hs : DE.QuietStrategy strat) (hc : DE.Calls env strat) :
      Robust opt B env (BAT.algHS B N p q strat f cr) (.exact N N)
  | hba (N p c f cr) (hN : 0 < N) (hb : c.best = true) (hs : DE.QuietStrategy (BAT.Callee.run c)) (hc : DE.Calls env (BAT.Callee.run c)) :
      Robust opt B env (BAT.algH B N p c f cr) (.exact N N)
  | plba (N) (hN : 0 < N) (hD : 0 < D) : Robust opt B env (BAT.algP B N) (.exact N N)
  | mshoa (N p) (hp : p.norm = false) (hN : 0 < N) (hu : unifErr piF (Fl.ofNat 2 * piF) = none) :
      Robust opt B env (MSHOA.alg B N p) (.exact (2 * N) N)
  | nm (N p) (hN : 2 ≤ N) : Robust opt B env (NM.alg B N p) ⟨N, 1, some (N + 1)⟩

variable {opt : OptType} {B : Box D} {env : Env (Vec D)} {A : Alg (Vec D)} {K : Cost}

theorem Robust.safe (h : Robust opt B env A K) (hE : env.Calm) (hB : B.Proper) : A.Safe env := by
  cases h with
  | ba N p hN => exact BA.safe hE hB hN p
  | bea N p hN hD h1 he hm hl hn => exact BEA.safe hE hB hl hD hN p (he.trans hm) hm hn
  | bfo N p k0 j0 hN => exact BFO.safe hE hB hN p k0 j0
  | cs N pa hN hs => exact CS.safe hE hB hs hN pa
  | fpa N p hN hs => exact FPA.safe hE hB hs hN p
  | fa N p hN => exact FA.safe hE hB hN p
  | gsa N p hN => exact GSA.safe hE hB hN p
  | gwo N hN => exact GWO.safe hE hB hN
  | gso N p hN => exact GSO.safe hE hB hN p
  | ga N p fuel hN hD hp => exact GA.safe hE hB hD hN opt p hp fuel
  | foa N p hN hp => exact FOA.safe hE hB hN p hp
  | fss N p hN => exact FSS.safe hE hB hN opt p
  | clonalg b N p hN hp => exact CLONALG.safe hE hN b p hp
  | de N strat f cr hN hs hc => exact DE.safe hE hB hN opt hc f cr
  | deMulti N strats f cr hN hn hs hc => exact DE.safe_multi hE hB hN opt hn hc f cr
  | deDyn N strat f cr pMax rp hN hp hs hc => exact DE.safe_dyn hE hB hN opt hc f cr hp rp
  | deDynMulti N strats f cr pMax rp hN hp hn hs hc => exact DE.safe_dynMulti hE hB hN opt hn hc f cr hp rp
  | jde N strat p hN hs hc => exact JDE.safe hE hB hN opt hc p
  | jdeMulti N strats f cr hN hn hs hc => exact JDE.safe_multi hE hB hN opt hn hc f cr
  | es1 p hmu hk hp => exact ES.safe1 hE hB opt p hmu hk hp
  | esL p lam hmu hk hp => exact ES.safeL hE hB opt p hmu hk hp lam
  | esM mu lam hmu hlam => exact ES.safeM hE hB opt hmu hlam
  | pso N p u c m hN => exact PSO.safe hE hB hN p u c m
  | ovcpso N p hN => exact PSO.safe_ovcpso hE hB hN p
  | clpso N p hN => exact PSO.safe_clpso hE hB hN p
  | sca N p hN hr hpi => exact SCA.safe hE hB hN p hr hpi
  | hs N p hN => exact HS.safe hE hB hN p
  | mke N p v2 hN hk h1 h2 => exact MKE.safe hE hB opt p v2 hN hk h1 h2
  | mke3 N fc n hN hn => exact MKE.safe3 hE hB hN fc hn
  | sa p hsub => exact SA.safe hE p
  | hho N levy hN hs => exact HHO.safe hE hB hs hN levy
  | kh N p hN => exact KH.safe hE hB hN p
  | mbo N p hD h1 h2 => exact MBO.safe hE hB p hD h1 h2
  | ca N p hN ht => exact CA.safe hE hB hN opt p ht
  | cso N p hN hv hc ht => exact CSO.safe hE hB hN p hv hc ht
  | aba N p hN => exact BAT.safe hE hB hN p
  | saba N p q hN => exact BAT.safe_saba hE hB hN p q
  | hsaba N p q strat f cr hN hs hc => exact BAT.safe_hsaba hE hB hN p q strat f cr fun _ _ _ _ _ => hc _ _ _ _ _
  | hba N p c f cr hN hb hs hc => exact BAT.safe_hba hE hB hN p c f cr hb fun _ _ _ _ _ => hc _ _ _ _ _
  | plba N hN hD => exact BAT.safe_plba hE hB hD hN
  | mshoa N p hp hN hu => exact MSHOA.safe hE hB hN p hu
  | nm N p hN => exact NM.safe hE hB hN p

theorem Robust.covered (h : Robust opt B env A K) : ∃ k s a i, Covered opt B A k s true a i K := by
  cases h with
  | ba N p hN => exact ⟨_, _, _, _, .ba N p⟩
  | bea N p hN hD h1 he hm hl hn => exact ⟨_, _, _, _, .bea N p h1 he hm⟩
  | bfo N p k0 j0 hN => exact ⟨_, _, _, false, .bfo N p k0 j0 false nofun⟩
  | cs N pa hN hs => exact ⟨_, _, _, _, .cs N pa⟩
  | fpa N p hN hs => exact ⟨_, _, _, _, .fpa N p⟩
  | fa N p hN => exact ⟨_, _, _, _, .fa N p⟩
  | gsa N p hN => exact ⟨_, _, _, _, .gsa N p⟩
  | gwo N hN => exact ⟨_, _, _, _, .gwo N⟩
  | gso N p hN => exact ⟨_, _, _, _, .gso N p⟩
  | ga N p fuel hN hD hp => exact ⟨_, _, _, _, .ga N p fuel⟩
  | foa N p hN hp => exact ⟨_, _, _, _, .foa N p hp.area⟩
  | fss N p hN => exact ⟨_, _, _, _, .fss N p⟩
  | clonalg b N p hN hp => exact ⟨_, _, _, false, .clonalg b N p false nofun⟩
  | de N strat f cr hN hs hc => exact ⟨_, _, _, _, .de N strat f cr hs⟩
  | deMulti N strats f cr hN hn hs hc => exact ⟨_, _, _, _, .deMulti N strats f cr hs⟩
  | deDyn N strat f cr pMax rp hN hp hs hc => exact ⟨_, _, _, _, .deDyn N strat f cr pMax rp hs⟩
  | deDynMulti N strats f cr pMax rp hN hp hn hs hc => exact ⟨_, _, _, _, .deDynMulti N strats f cr pMax rp hs⟩
  | jde N strat p hN hs hc => exact ⟨_, _, _, _, .jde N strat p hs⟩
  | jdeMulti N strats f cr hN hn hs hc => exact ⟨_, _, _, _, .jdeMulti N strats f cr hs⟩
  | es1 p hmu hk hp => exact ⟨_, _, _, _, .es1 p⟩
  | esL p lam hmu hk hp => exact ⟨_, _, _, _, .esL p lam⟩
  | esM mu lam hmu hlam => exact ⟨_, _, _, _, .esM mu lam⟩
  | pso N p u c m hN => exact ⟨_, _, _, false, .pso N p u c m false nofun⟩
  | ovcpso N p hN => exact ⟨_, _, _, false, .ovcpso N p false nofun⟩
  | clpso N p hN => exact ⟨_, _, _, _, .clpso N p⟩
  | sca N p hN hr hpi => exact ⟨_, _, _, _, .sca N p⟩
  | hs N p hN => exact ⟨_, _, _, _, .hs N p⟩
  | mke N p v2 hN hk h1 h2 => exact ⟨_, _, _, _, .mke N p v2⟩
  | mke3 N fc n hN hn => exact ⟨_, _, _, _, .mke3 N fc n⟩
  | sa p hsub => exact ⟨_, _, _, false, .sa p false nofun hsub⟩
  | hho N levy hN hs => exact ⟨_, _, _, _, .hho N levy⟩
  | kh N p hN => exact ⟨_, _, _, _, .kh N p⟩
  | mbo N p hD h1 h2 => exact ⟨_, _, _, _, .mbo N p⟩
  | ca N p hN ht => exact ⟨_, _, _, _, .ca N p⟩
  | cso N p hN hv hc ht => exact ⟨_, _, _, _, .cso N p⟩
  | aba N p hN => exact ⟨_, _, _, _, .aba N p⟩
  | saba N p q hN => exact ⟨_, _, _, _, .saba N p q⟩
  | hsaba N p q strat f cr hN hs hc => exact ⟨_, _, _, _, .hsaba N p q strat f cr hs⟩
  | hba N p c f cr hN hb hs hc => exact ⟨_, _, _, _, .hba N p c f cr hs⟩
  | plba N hN hD => exact ⟨_, _, _, _, .plba N⟩
  | mshoa N p hp hN hu => exact ⟨_, _, _, _, .mshoa N p hp⟩
  | nm N p hN => exact ⟨_, _, _, _, .nm N p⟩

omit [Arith] in
theorem Env.Calm.noFuel (hE : env.Calm) (hc : env.Polite) : NoFuelError env := by
  refine ⟨fun k x h => ?_, fun i k e h => ?_⟩
  · obtain ⟨r, hr, -⟩ := hE k x
    rw [hr] at h
    cases h
  · rw [hc] at h
    cases h

/-- C71: with `max_iters = m`, `run` on a problem with finite bounds, an objective function that always returns a number and callbacks
that do not raise returns a solution. -/
theorem C71_max_iters (h : Robust opt B env A K) (hE : env.Calm) (hc : env.Polite) (hB : B.Proper) (m : ℕ) (hm : env.maxIters = some m)
    (main : Bool) (ncb fuel : ℕ) (hf : m < fuel) : ∃ res, (A.exec env main ncb fuel).1 = .ok ⟨some res, none⟩ := by
  obtain ⟨k, s, a, i, hA⟩ := h.covered
  exact (h.safe hE hB).exec hc main ncb fuel (C17_max_iters hA env (hE.noFuel hc) m hm main ncb fuel hf).1

/-- C71: with `max_evals = m` as well, if every iteration evaluates something. -/
theorem C71_max_evals (h : Robust opt B env A K) (hK : 0 < K.lo) (hE : env.Calm) (hc : env.Polite) (hB : B.Proper) (m : ℕ)
    (hm : env.maxEvals = some m) (main : Bool) (ncb fuel : ℕ) (hf : m < fuel) : ∃ res, (A.exec env main ncb fuel).1 = .ok ⟨some res, none⟩ := by
  obtain ⟨k, s, a, i, hA⟩ := h.covered
  exact (h.safe hE hB).exec hc main ncb fuel (C17_max_evals hA hK env (hE.noFuel hc) m hm main ncb fuel hf)

/-- C71 for the algorithms with a loop that may in principle go on forever: a run that does end returns a solution. -/
theorem C71_abc (hE : env.Calm) (hc : env.Polite) (hB : B.Proper) (hD : 0 < D) {N : ℕ} (hN : 0 < N) (opt : OptType) (limit lf : ℕ) (main : Bool)
    (ncb fuel : ℕ) (hf : ((ABC.alg opt B N limit lf).exec env main ncb fuel).1 ≠ .error .outOfFuel) :
    ∃ res, ((ABC.alg opt B N limit lf).exec env main ncb fuel).1 = .ok ⟨some res, none⟩ :=
  (ABC.safe hE hB hD hN opt limit lf).exec hc main ncb fuel hf

theorem C71_hc (hE : env.Calm) (hc : env.Polite) {delta : Fl} (hd : ¬ delta < .fin 0) (lf : ℕ) (main : Bool) (ncb fuel : ℕ)
    (hf : ((HC.alg B delta lf).exec env main ncb fuel).1 ≠ .error .outOfFuel) :
    ∃ res, ((HC.alg B delta lf).exec env main ncb fuel).1 = .ok ⟨some res, none⟩ :=
  (HC.safe hE delta hd lf).exec hc main ncb fuel hf

/-- C70, what holds: anarchic society optimization on a problem with two dimensions or more: a run that ends returns a solution. -/
theorem ASO.C70_partial (hE : env.Calm) (hc : env.Polite) (hB : B.Proper) (hD : 2 ≤ D) {N : ℕ} (hN : 0 < N) (p : Par D) (lf : ℕ)
    {V : Fl → Prop} (hV : Roams env p.f V) (ha : ∀ a ∈ [p.alpha, p.gamma, p.theta], ∃ l, fullArray a N = .ok l)
    (hself : ∀ x, Finite x → p.dn x x / p.dn B.hi B.lo ≤ p.nl) (main : Bool) (ncb fuel : ℕ)
    (hf : ((alg B N p lf).exec env main ncb fuel).1 ≠ .error .outOfFuel) :
    ∃ res, ((alg B N p lf).exec env main ncb fuel).1 = .ok ⟨some res, none⟩ :=
  (safe hE hB hN hD p lf hV ha hself).exec hc main ncb fuel hf

/-! ### Populations that are too small

The flower pollination algorithm, the grey wolf optimizer and comprehensive learning PSO accept these sizes and raise later. -/

omit [Arith] in
/-- C71 is false for the flower pollination algorithm with one flower: local pollination needs two. -/
theorem C71_fpa_false : ((@FPA.alg Ex.arith 1 (Ex.box 1) 1 (.fin (4 / 5))).exec Ex.env2 true 0 5).1 = .error .valueError := by
  have h : (match ((@FPA.alg Ex.arith 1 (Ex.box 1) 1 (.fin (4 / 5))).exec Ex.env2 true 0 5).1 with | .error .valueError => true | _ => false) = true := by
    decide +kernel
  split at h
  · assumption
  · cases h

omit [Arith] in
/-- C71 is false for the grey wolf optimizer with two wolves. -/
theorem C71_gwo_false : ((@GWO.alg Ex.arith 1 (Ex.box 1) 2).exec Ex.env2 true 0 5).1 = .error .indexError := by
  have h : (match ((@GWO.alg Ex.arith 1 (Ex.box 1) 2).exec Ex.env2 true 0 5).1 with | .error .indexError => true | _ => false) = true := by
    decide +kernel
  split at h
  · assumption
  · cases h

omit [Arith] in
/-- C71 is false for comprehensive learning PSO with one particle. -/
theorem C71_clpso_false (p : PSO.CPar 1) : ((@PSO.algC Ex.arith 1 (Ex.box 1) 1 p).exec Ex.env2 true 0 5).1 = .error .zeroDivisionError := by
  have h : (match ((@PSO.algC Ex.arith 1 (Ex.box 1) 1 p).exec Ex.env2 true 0 5).1 with | .error .zeroDivisionError => true | _ => false) = true := by
    rfl
  split at h
  · assumption
  · cases h

/-- C59, what holds: in two dimensions or more monarch butterfly optimization returns a solution, if both subpopulations have two butterflies or more. -/
theorem MBO.C59_mbo_partial (hE : env.Calm) (hc : env.Polite) (hB : B.Proper) (N : ℕ) (p : MBO.Par) (hD : 2 ≤ D) (h1 : 2 ≤ p.np1) (h2 : p.np1 + 2 ≤ N) (m : ℕ)
    (hm : env.maxIters = some m) (main : Bool) (ncb fuel : ℕ) (hf : m < fuel) : ∃ res, ((MBO.alg B N p).exec env main ncb fuel).1 = .ok ⟨some res, none⟩ :=
  C71_max_iters (opt := .minimization) (.mbo N p hD h1 h2) hE hc hB m hm main ncb fuel hf

/-- C66, what holds: with two points or more (so with the default population size in two dimensions or more) the Nelder-Mead method returns a solution. -/
theorem NM.C66_partial (hE : env.Calm) (hc : env.Polite) (hB : B.Proper) (N : ℕ) (p : NM.Par) (hN : 2 ≤ N) (m : ℕ)
    (hm : env.maxIters = some m) (main : Bool) (ncb fuel : ℕ) (hf : m < fuel) : ∃ res, ((NM.alg B N p).exec env main ncb fuel).1 = .ok ⟨some res, none⟩ :=
  C71_max_iters (opt := .minimization) (.nm N p hN) hE hc hB m hm main ncb fuel hf

omit [Arith] in
/-- C67, what holds: the points of the initial simplex are evaluated within the bounds. -/
theorem NM.C67_partial (env : Env (Vec D)) (B : Box D) (N : ℕ) : ∀ c ∈ ((NM.init B N).run env (World.init env.opt)).2.calls, B.Mem c.1 := by
  have h := (C24_default_init env B N).1
  simp only [NM.init, Prog.bind_def, Prog.run_bind]
  split <;> (rename_i h'; rw [h'] at h; exact h)

/-! ### Cases that meet the hypotheses -/

namespace Ex

omit [Arith] in
theorem env2_calm (mi : ℕ) (me : Option ℕ) : (env2 (D := D) mi me).Calm := fun _ x => ⟨_, rfl, by
  show (match sumSq x with | .nan => .fin 0 | v => v) ≠ Fl.nan
  split <;> simp_all⟩

omit [Arith] in
theorem env2_polite (mi : ℕ) (me : Option ℕ) : (env2 (D := D) mi me).Polite := fun _ _ _ => rfl

omit [Arith] in
theorem box_proper (D : ℕ) : (box D).Proper := fun _ => by
  show unifErr (.fin (-2)) (.fin 2) = none
  decide +kernel

omit [Arith] in
theorem sigma : @SigmaLaw Ex.arith := by
  letI := Ex.arith
  show ¬ (levySigma : Fl) < .fin 0
  decide +kernel

omit [Arith] in
theorem decay : @BEA.DecayLaw Ex.arith := by
  letI := Ex.arith
  intro q hq
  exact ⟨q * (95 / 100), by positivity, by show Fl.fin _ = Fl.fin _; rfl⟩

end Ex

/-- Any number of iterations of particle swarm optimization on the sphere function. -/
example (m : ℕ) (p : PSO.Par 2) : ∃ res, ((PSO.alg (Ex.box 2) 30 p false true 5).exec (Ex.env2 m) true 0 (m + 1)).1 = .ok ⟨some res, none⟩ :=
  C71_max_iters (opt := .minimization) (.pso 30 p false true 5 (by decide)) (Ex.env2_calm m none) (Ex.env2_polite m none) (Ex.box_proper 2) m rfl true 0 _ (by omega)

/-- Differential evolution, for every budget. -/
example (m : ℕ) (f cr : Fl) : ∃ res, ((DE.alg .minimization (Ex.box 3) 50 DE.crossRand1 f cr).exec (Ex.env2 7 (some m)) true 2 (m + 1)).1 = .ok ⟨some res, none⟩ :=
  C71_max_evals (.de 50 _ f cr (by decide) (DE.quiet_strategy 3 _) (DE.calls_strategy (by decide) 3 _)) (by decide) (Ex.env2_calm 7 _) (Ex.env2_polite 7 _)
    (Ex.box_proper 3) m rfl true 2 _ (by omega)

omit [Arith] in
/-- Cuckoo search. -/
example (m : ℕ) (pa : Fl) : ∃ res, ((@CS.alg Ex.arith 2 (Ex.box 2) 25 pa).exec (Ex.env2 m) true 0 (m + 1)).1 = .ok ⟨some res, none⟩ :=
  letI := Ex.arith
  C71_max_iters (opt := .minimization) (.cs 25 pa (by decide) Ex.sigma) (Ex.env2_calm m none) (Ex.env2_polite m none) (Ex.box_proper 2) m rfl true 0 _ (by omega)

omit [Arith] in
/-- In exact arithmetic the individuals of anarchic society optimization keep finite coordinates. -/
theorem ASO.Ex.roams {D : ℕ} (mi : ℕ) (me : Option ℕ) (q : ℚ) :
    letI := NiaPy.Ex.arith; Roams (NiaPy.Ex.env2 (D := D) mi me) (.fin q) (fun v => ∃ q, v = .fin q) :=
  letI := NiaPy.Ex.arith
  { rep := fun _ _ x hx j => by
      obtain ⟨q, hq⟩ := hx j
      show ∃ q, NiaPy.Ex.clip1 (x j) = _
      rw [hq]; exact ⟨_, rfl⟩
    fin := fun q => ⟨q, rfl⟩
    noise := fun q k => ⟨_, rfl⟩ }

omit [Arith] in
/-- Anarchic society optimization with the parameters of the examples. -/
example (c : ASO.Comb) : letI := Ex.arith; ∃ res, ((ASO.alg (Ex.box 2) 3 (ASO.Ex.par c) 9).exec Ex.env2 true 0 5).1 = .ok ⟨some res, none⟩ := by
  let := Ex.arith
  refine ASO.C70_partial (Ex.env2_calm 2 none) (Ex.env2_polite 2 none) (Ex.box_proper 2) (by decide) (by decide) (ASO.Ex.par c) 9 (ASO.Ex.roams 2 none _)
    (fun a ha => ?_) (fun x hx => ?_) true 0 5 ?_
  · simp only [ASO.Ex.par, List.mem_cons, List.not_mem_nil, or_false] at ha
    rcases ha with rfl | rfl | rfl <;> exact ⟨_, rfl⟩
  · obtain ⟨a, ha⟩ := hx 0
    obtain ⟨b, hb⟩ := hx 1
    have h : euclid x x = .fin 0 := by
      show (Fl.addX (Fl.addX 0 (Fl.mulX (Fl.addX (x 0) (-x 0)) (Fl.addX (x 0) (-x 0)))) (Fl.mulX (Fl.addX (x 1) (-x 1)) (Fl.addX (x 1) (-x 1)))) = _
      rw [ha, hb]
      show Fl.fin (0 + (a + -a) * (a + -a) + (b + -b) * (b + -b)) = _
      congr 1; ring
    show euclid x x / euclid (Ex.box 2).hi (Ex.box 2).lo ≤ .fin 1
    rw [h]; decide +kernel
  · have h : (match ((ASO.alg (Ex.box 2) 3 (ASO.Ex.par c) 9).exec Ex.env2 true 0 5).1 with | .error .outOfFuel => false | _ => true) = true := by
      cases c <;> decide +kernel
    intro he
    rw [he] at h; cases h

omit [Arith] in
/-- The hypotheses of `MBO.C59_mbo_partial`, `NM.C66_partial` hold, with any number of iterations; the points of `NM.C67_partial` exist. -/
example (m : ℕ) (p : MBO.Par) (h : p.np1 = 5) (q : NM.Par) : letI := Ex.arith
    (∃ res, ((MBO.alg (Ex.box 2) 12 p).exec (Ex.env2 m) true 0 (m + 1)).1 = .ok ⟨some res, none⟩) ∧
    (∃ res, ((NM.alg (Ex.box 2) 2 q).exec (Ex.env2 m) true 0 (m + 1)).1 = .ok ⟨some res, none⟩) ∧
    ((NM.init (Ex.box 2) 2).run Ex.env2 (World.init .minimization)).2.calls.length = 2 :=
  letI := Ex.arith
  ⟨MBO.C59_mbo_partial (Ex.env2_calm m none) (Ex.env2_polite m none) (Ex.box_proper 2) 12 p (by decide) (by omega) (by omega) m rfl true 0 _ (by omega),
   NM.C66_partial (Ex.env2_calm m none) (Ex.env2_polite m none) (Ex.box_proper 2) 2 q (by decide) m rfl true 0 _ (by omega), by decide +kernel⟩

end NiaPy
