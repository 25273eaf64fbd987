import Verif.SafeB
import Verif.Algo.MBO
import Verif.Algo.CA
import Verif.Algo.CSO
import Verif.Algo.ASO
import Verif.Algo.NM
import Verif.Algo.BAT

/-!
# Runs that do not raise: monarch butterfly, camel, cat swarm, anarchic society, Nelder-Mead and the bat variants
-/

namespace NiaPy
variable [Arith] {D N : ℕ} {env : Env (Vec D)} {B : Box D}

/-- Monarch butterfly optimization: both parts of the population have two members or more, and so has each solution. -/
theorem MBO.safe (hE : env.Calm) (hB : B.Proper) (p : Par) (hD : 2 ≤ D) (h1 : 2 ≤ p.np1) (h2 : p.np1 + 2 ≤ N) : (alg B N p).Safe env := by
  have hN : 0 < N := by omega
  have h0 : unifErr 0 1 = none := by decide
  have hrow : ∀ (pop : Fin N → Vec D) k, k < N → Ends env (row pop k) := fun pop k hk => by
    unfold row
    rw [dif_pos hk]
    exact .pure' trivial
  have hsec : ∀ y : Vec D, Ends env (second y) := fun y => by
    unfold second
    rw [dif_pos (by omega)]
    exact .pure' trivial
  have hmig : ∀ (pop : Fin N → Vec D) j, Ends env (migrate1 p pop j) := fun pop j =>
    .bindT Total.rand.ends fun r => .ite (fun _ => .bind' (Total.int (by omega)) fun k hk => .bindT (hrow _ _ (by omega)) fun _ => .pure' trivial)
      fun _ => .bind' (Total.int (by omega)) fun k hk => .bindT (hrow _ _ (by omega)) fun _ => .pure' trivial
  have hadj : ∀ t (pop : Fin N → Vec D) best, Ends env (adjustRow p t pop best) := fun t pop best => by
    refine .bindT (.dist rfl) fun _ => .bindT ?_ fun dx => .tabMT fun j => .bindT (Total.unif h0).ends fun u => .ite (fun _ => .pure' trivial) fun _ => ?_
    · unfold levy
      ends
    · exact .bind' (Total.int (by omega)) fun k hk => .bindT (hrow _ _ (by omega)) fun _ => .bindT (hsec _) fun _ => .bindT (Total.unif h0).ends fun _ => .pure' trivial
  have hev : ∀ pop : Fin N → Vec D, Ends env (evalSort pop) := fun pop => by
    unfold evalSort
    ends
  have hcur : ∀ (s : St D N) pop, Ends env (current s pop) := fun s pop => by
    unfold current
    split
    · exact .pure' trivial
    · exact hrow _ _ hN
  refine ⟨fun _ => True, .bind' (Total.defaultNumpyInit hE hB hN) fun r hr => .bindT Total.sortIdx.ends fun si => .pure' ⟨trivial, first_arr hN fun i => hr _⟩,
    fun s xb fxb _ => ?_⟩
  refine .bindT Total.look.ends fun v => .bindT (.tabMT fun i => .ite (fun _ => .tabMT fun j => hmig _ _) fun _ => .pure' trivial) fun p1 => .bindT .repairRows fun p1 =>
    .bindT (hcur _ _) fun cur => .bindT (.tabMT fun i => .ite (fun _ => .pure' trivial) fun _ => hadj _ _ _) fun p2 => .bindT .repairRows fun p2 => .bindT (hev _) fun p3 =>
    .bindT (hrow _ _ hN) fun cur => .bindT (hev _) fun _ => .bindT (.getBest_arr hN) fun _ => .pure' trivial

/-- The camel algorithm. -/
theorem CA.safe (hE : env.Calm) (hB : B.Proper) (hN : 0 < N) (opt : OptType) (p : Par) (ht : unifErr p.minT p.maxT = none) : (alg opt B N p).Safe env := by
  have hb : Total env (born opt B p) fun c => c.f ≠ .nan :=
    .bind' (.bindT (Total.unifVec hB).ends fun _ => Total.indivEvaluate hE) fun _ h => .pure' h
  have h1 := unifErr_one
  refine ⟨fun _ => True, (Total.tabM fun _ => hb).mono fun s hs => ⟨trivial, first_arr hN hs⟩, fun s xb fxb _ => ?_⟩
  refine .bindT (.tabMT fun i => ?_) fun s1 => .bindT (.tabMT fun i => ?_) fun s2 => .bindT (.tabMT fun i => .ite (fun _ => hb.ends) fun _ => .pure' trivial) fun s3 =>
    .bindT (.getBest_arr hN) fun _ => .pure' trivial
  · unfold walk arrive
    ends
  · unfold oasis
    ends

/-- Cat swarm optimization. -/
theorem CSO.safe (hE : env.Calm) (hB : B.Proper) (hN : 0 < N) (p : Par) (hv : unifErr (-p.maxV) p.maxV = none) (hc : 0 < p.smp)
    (ht : p.tracing N ≤ N) : (alg B N p).Safe env := by
  have hch : ∀ {n : ℕ} (cs : Fin n → Vec D × Fl) fxb (k : Fin N) s, 0 < n → Ends env (choose cs fxb k s) := fun cs fxb k s hn => by
    unfold choose share select
    ends
  have hcopy : ∀ x : Vec D, Ends env (copy p x) := fun x => by
    unfold copy
    ends
  refine ⟨fun _ => True, .bind' (Total.defaultNumpyInit hE hB hN) fun r hr => .bindT (.tabMT fun _ => (Total.unifVec fun _ => hv).ends) fun _ =>
    .pure' ⟨trivial, first_arr hN hr⟩, fun s xb fxb _ => ?_⟩
  refine .bindT (.bindT (Total.choiceFin ht).ends fun _ => .pure' trivial) fun m => .bindT (.forFin _ trivial fun k s _ => .ite (fun _ => ?_) fun _ => ?_) fun s' =>
    .bindT (.takeMin hN) fun _ => .pure' trivial
  · unfold trace
    ends
  · refine .bindT (.tabMT fun _ => hcopy _) fun cs => .ite (fun _ => hch _ _ _ _ (by omega)) fun h => hch _ _ _ _ ?_
    unfold Par.copies
    rw [if_neg h]
    exact hc

/-- The Nelder-Mead method with two points or more. -/
theorem NM.safe (hE : env.Calm) (hB : B.Proper) (hN : 2 ≤ N) (p : Par) : (alg B N p).Safe env := by
  have hr : ∀ (s : St D N) h rs, Ends env (reflects s h rs : Prog (Vec D) Bool) := fun s h rs => by
    refine .ite (fun _ => ?_) fun _ => .pure' trivial
    rw [dif_pos hN]
    exact .pure' trivial
  have hm : ∀ s : St D N, Ends env (method p s) := fun s => by
    unfold method
    rw [dif_pos (by omega)]
    refine .bindT (Total.eval hE).ends fun rs => .bindT (hr _ _ _) fun b => .ite (fun _ => .pure' trivial) fun _ => .ite (fun _ => ?_) fun _ => ?_
    · unfold expand
      ends
    · unfold contract shrink
      ends
  refine ⟨fun _ => True, .bind' (Total.defaultNumpyInit hE hB (by omega)) fun r hr => .pure' ⟨trivial, first_arr (by omega) hr⟩, fun s xb fxb _ => ?_⟩
  exact .bindT Total.sortIdx.ends fun si => .bindT (hm _) fun s => .bindT (.getBest_arr (by omega)) fun _ => .pure' trivial

theorem BAT.ends_judge (hE : env.Calm) (pop : Fin N → Vec D) (fit : Fin N → Fl) (i : Fin N) (ok : Fl → Bool) (y : Vec D) :
    Ends env (judge pop fit i ok y) := by
  unfold judge
  ends

/-- The adaptive bat algorithm. -/
theorem BAT.safe (hE : env.Calm) (hB : B.Proper) (hN : 0 < N) (p : Par) : (alg B N p).Safe env := by
  refine ⟨fun _ => True, .bind' (Total.defaultNumpyInit hE hB hN) fun r hr => .pure' ⟨trivial, first_arr hN hr⟩, fun s xb fxb _ => ?_⟩
  refine .forFin _ trivial fun i a _ => .bindT Total.rand.ends fun r => .bindT ?_ fun y => .bindT (ends_judge hE _ _ _ _ _) fun _ => .pure' trivial
  unfold candidate localSearch
  ends

/-- The self-adaptive bat algorithms, given a local search that does not raise. -/
theorem BAT.safeS (hE : env.Calm) (hB : B.Proper) (hN : 0 < N) (p : Par) (q : Self) (ls : Local D N) (hl : ∀ b l i pop, Ends env (ls b l i pop)) :
    (mkS B N p q ls).Safe env := by
  have ha : ∀ lo hi tao old, Ends env (adapt lo hi tao old : Prog (Vec D) Fl) := fun lo hi tao old => by
    unfold adapt
    ends
  refine ⟨fun _ => True, .bind' (Total.defaultNumpyInit hE hB hN) fun r hr => .pure' ⟨trivial, first_arr hN hr⟩, fun s xb fxb _ => ?_⟩
  refine .forFin _ trivial fun i a _ => .bindT (ha _ _ _ _) fun l => .bindT (ha _ _ _ _) fun pr => .bindT Total.rand.ends fun r => .bindT ?_ fun y =>
    .bindT (ends_judge hE _ _ _ _ _) fun _ => .pure' trivial
  exact .bindT Total.rand.ends fun r => .ite (fun _ => hl _ _ _ _) fun _ => .repair

/-- The self-adaptive bat algorithm. -/
theorem BAT.safe_saba (hE : env.Calm) (hB : B.Proper) (hN : 0 < N) (p : Par) (q : Self) : (algS B N p q).Safe env :=
  safeS hE hB hN p q _ fun b l i pop => by
    unfold localSearch
    ends

/-- The hybrid self-adaptive bat algorithm, given a mutation strategy that does not raise. -/
theorem BAT.safe_hsaba (hE : env.Calm) (hB : B.Proper) (hN : 0 < N) (p : Par) (q : Self) (strat : DE.Strategy D) (f cr : Fl)
    (hs : ∀ (pop : Fin N → Vec D) i f cr xb, Ends env (strat pop i f cr xb)) : (algHS B N p q strat f cr).Safe env :=
  safeS hE hB hN p q _ fun b l i pop => .bindT (hs _ _ _ _ _) fun _ => .repair

/-- The hybrid bat algorithm, given a mutation strategy that takes the best solution and does not raise. -/
theorem BAT.safe_hba (hE : env.Calm) (hB : B.Proper) (hN : 0 < N) (p : BA.Par) (c : Callee D) (f cr : Fl) (hc : c.best = true)
    (hs : ∀ (pop : Fin N → Vec D) i f cr xb, Ends env (c.run pop i f cr xb)) : (algH B N p c f cr).Safe env := by
  refine ⟨fun _ => True, .bind' (Total.defaultNumpyInit hE hB hN) fun r hr => .pure' ⟨trivial, first_arr hN hr⟩, fun s xb fxb _ => ?_⟩
  refine .bindT Total.look.ends fun v => .bindT (.forFin _ trivial fun i a _ => .bindT Total.rand.ends fun r => .bindT ?_ fun y =>
    .bindT (ends_judge hE _ _ _ _ _) fun _ => .pure' trivial) fun _ => .pure' trivial
  refine .bindT Total.rand.ends fun r => .ite (fun _ => .bindT ?_ fun _ => .repair) fun _ => .repair
  rw [if_pos hc]
  exact hs _ _ _ _ _

/-- The parameter-free bat algorithm. -/
theorem BAT.safe_plba (hE : env.Calm) (hB : B.Proper) (hD : 0 < D) (hN : 0 < N) : (algP B N).Safe env := by
  have hw : Ends env (width B) := by
    unfold width
    rw [dif_pos hD]
    exact .pure' trivial
  refine ⟨fun _ => True, .bind' (Total.defaultNumpyInit hE hB hN) fun r hr => .pure' ⟨trivial, first_arr hN hr⟩, fun s xb fxb _ => ?_⟩
  refine .forFin _ trivial fun i a _ => .bindT hw fun w => .bindT .norm1 fun z => .bindT ?_ fun y => .bindT (ends_judge hE _ _ _ _ _) fun _ => .pure' trivial
  unfold candidateP
  ends

end NiaPy
