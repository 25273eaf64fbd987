import Verif.Algo.ES

/-!
# The 1/5 rule of ES(mu+lambda) (C91)
-/

namespace NiaPy.ES
open NiaPy
variable [Arith] {D : ℕ}

/-- How many individuals of the population `new` equal none of the population `old`, in solution and fitness (numpy equality: a NaN equals nothing). -/
def arrivals (old new : List (Ind D)) : ℕ :=
  (new.filter fun e => !old.any fun o => ((List.finRange D).all fun j => Fl.eqB (e.x j) (o.x j)) && Fl.eqB e.f o.f).length

/-- The arrivals along a history of populations, the latest first. -/
def allArrivals : List (List (Ind D)) → ℕ
  | new :: old :: l => arrivals old new + allArrivals (old :: l)
  | _ => 0

/-- An individual without NaN. -/
def Ind.Clean (e : Ind D) : Prop := e.f ≠ .nan ∧ ∀ j, e.x j ≠ .nan

omit [Arith] in
theorem eqB_self {v : Fl} (h : v ≠ .nan) : Fl.eqB v v = true := by
  cases v <;> simp_all [Fl.eqB]

omit [Arith] in
theorem Ind.Clean.beq {e : Ind D} (h : e.Clean) : Indiv.beq ⟨e.x, e.f⟩ ⟨e.x, e.f⟩ = true := by
  unfold Indiv.beq
  rw [Bool.and_eq_true, List.all_eq_true]
  exact ⟨fun j _ => eqB_self (h.2 j), eqB_self h.1⟩

/-- What the 1/5 rule multiplies the step sizes by, given the number of arrivals. -/
def factor (p : Par) (n : ℕ) : Fl → Fl :=
  if Fl.ofNat n / Fl.ofNat p.k < lit 1 5 then fun x => p.cR * x else if lit 1 5 < Fl.ofNat n / Fl.ofNat p.k then fun x => p.cA * x else id

theorem adaptL_eq (p : Par) (n : ℕ) (s : StL D) : adaptL p n s =
    if (n + 1) % p.k = 0 then ⟨s.pop.map fun e => { e with rho := factor p s.ki e.rho }, 0⟩ else s := by
  unfold adaptL
  split
  · unfold updateRhos factor
    congr 1
    simp only
    split
    · rfl
    · split
      · rfl
      · exact (List.map_id' _).symm
  · rfl

omit [Arith] in
/-- `change_count` is the number of arrivals, if the individuals kept have no NaN. -/
theorem changeCount_eq {old c : List (Ind D)} {cn : List (Ind D × Bool)} {g : Fl → Fl} (hc : c = old.map fun e => { e with rho := g e.rho })
    (hk : ∀ e ∈ cn, e.2 = true → e.1 ∈ c) (hn : ∀ e ∈ cn, e.1.Clean) : changeCount c cn = arrivals old (cn.map (·.1)) := by
  have hany : ∀ e : Ind D, (c.any fun o => Indiv.beq ⟨e.x, e.f⟩ ⟨o.x, o.f⟩) = old.any fun o => Indiv.beq ⟨e.x, e.f⟩ ⟨o.x, o.f⟩ := fun e => by
    rw [hc, List.any_map]; rfl
  unfold changeCount arrivals
  rw [List.filter_map, List.length_map]
  congr 1
  refine List.filter_congr fun e he => ?_
  rw [hany]
  change _ = !old.any fun o => Indiv.beq ⟨e.1.x, e.1.f⟩ ⟨o.x, o.f⟩
  cases h2 : e.2 with
  | false => rfl
  | true =>
    have : (old.any fun o => Indiv.beq ⟨e.1.x, e.1.f⟩ ⟨o.x, o.f⟩) = true := by
      rw [← hany]
      exact List.any_eq_true.2 ⟨e.1, hk e he h2, (hn e he).beq⟩
    rw [this]; rfl

variable {env : Env (Vec D)}

/-- One iteration: the counter, and the step sizes. -/
theorem iterL_full {p : Par} {lam : ℕ} {s : StL D} {xb : Vec D} {fxb : Fl} {w w' : World (Vec D)} {r' : StL D × Vec D × Fl}
    (h : (iterL p lam s xb fxb).run env w = (.ok r', w')) (hn : ∀ e ∈ r'.1.pop, e.Clean) : p.k ≠ 0 ∧
      r'.1.ki = (if (w.st.iters + 1) % p.k = 0 then 0 else s.ki) + arrivals s.pop r'.1.pop ∧
      ∀ e ∈ r'.1.pop, e.rho = 1 ∨ ∃ o ∈ s.pop, e = if (w.st.iters + 1) % p.k = 0 then { o with rho := factor p s.ki o.rho } else o := by
  unfold iterL at h
  simp only [Prog.bind_def, Prog.run_bind, Prog.run_look] at h
  by_cases hk : p.k = 0
  · rw [if_pos hk] at h; cases h
  rw [if_neg hk] at h
  refine ⟨hk, ?_⟩
  have hfin : ∀ s : StL D, Post env (do
      let cn ← mapM' (List.range lam) fun _ => do
        let y ← mutateRand p.mu s.pop
        newInd y true
      let cn ← sortRecs (fun e : Ind D × Bool => e.1.f) (cn.map (·, false) ++ s.pop.map (·, true))
      let cn := cn.take p.mu
      let ki := s.ki + changeCount s.pop cn
      let l := cn.map (·.1)
      let (xb, fxb) ← Prog.getBest (l.map (·.x)) (l.map (·.f)) xb fxb
      return ((⟨l, ki⟩ : StL D), xb, fxb)) fun r' => ∃ cn : List (Ind D × Bool), r'.1 = ⟨cn.map (·.1), s.ki + changeCount s.pop cn⟩ ∧
        (∀ e ∈ cn, e.2 = true → e.1 ∈ s.pop) ∧ ∀ e ∈ cn, e.1.rho = 1 ∨ e.1 ∈ s.pop := by
    intro s
    refine Post.bind' post_offspring fun cn hcn => .bind' (.yields Yields.sortRecs) fun cs hcs => .bind' .any fun b _ => .pure' ⟨cs.take p.mu, rfl, ?_, ?_⟩
    all_goals
      rintro ⟨e, t⟩ he
      rcases List.mem_append.1 (hcs.1.mem_iff.1 (List.mem_of_mem_take he)) with h | h
    · obtain ⟨a, ha, h⟩ := List.mem_map.1 h
      cases h
      exact nofun
    · obtain ⟨a, ha, h⟩ := List.mem_map.1 h
      cases h
      exact fun _ => ha
    · obtain ⟨a, ha, h⟩ := List.mem_map.1 h
      cases h
      exact .inl (hcn _ ha)
    · obtain ⟨a, ha, h⟩ := List.mem_map.1 h
      cases h
      exact .inr ha
  obtain ⟨cn, h1, h2, h3⟩ := hfin _ _ _ _ h
  have hcl : ∀ e ∈ cn, e.1.Clean := fun e he => hn _ (by rw [h1]; exact List.mem_map_of_mem he)
  have hc : (adaptL p w.st.iters s).pop = s.pop.map fun e => { e with rho := (if (w.st.iters + 1) % p.k = 0 then factor p s.ki else id) e.rho } := by
    rw [adaptL_eq]
    by_cases hz : (w.st.iters + 1) % p.k = 0
    · rw [if_pos hz, if_pos hz]
    · rw [if_neg hz, if_neg hz]; exact (List.map_id' _).symm
  rw [h1]
  refine ⟨?_, fun e he => ?_⟩
  · change (adaptL p w.st.iters s).ki + _ = _
    rw [changeCount_eq hc h2 hcl, adaptL_eq]
    by_cases hz : (w.st.iters + 1) % p.k = 0
    · rw [if_pos hz, if_pos hz]
    · rw [if_neg hz, if_neg hz]
  · obtain ⟨e', he', rfl⟩ := List.mem_map.1 he
    refine (h3 e' he').imp_right fun h => ?_
    rw [hc] at h
    obtain ⟨o, ho, h⟩ := List.mem_map.1 h
    refine ⟨o, ho, ?_⟩
    rw [← h]
    by_cases hz : (w.st.iters + 1) % p.k = 0
    · rw [if_pos hz, if_pos hz]
    · rw [if_neg hz, if_neg hz]; rfl

omit [Arith] in
theorem allArrivals_cons {a b : List (Ind D)} {l : List (List (Ind D))} {n : ℕ} :
    allArrivals ((a :: b :: l).take (n + 2)) = arrivals b a + allArrivals ((b :: l).take (n + 1)) := rfl

/-- **C91.** In every run of ES(mu+lambda) whose individuals contain no NaN: in every `k`-th iteration the step sizes of all individuals that are kept are multiplied by
`c_r` if fewer than `k / 5` individuals have arrived in the populations of the `k` iterations before (in the first period only `k - 1` have been made), by `c_a` if more
have, and left alone if exactly that many have; in all other iterations they are left alone. Every other individual has step size 1. (The rule counts individuals, not
iterations that were successful: with a population of any size it compares a number of up to `k * mu` with `k / 5`.) -/
theorem C91_mpl_rule (opt : OptType) (B : Box D) (p : Par) (lam : ℕ) (env : Env (Vec D)) (ncb : ℕ) (hist : List ((algL opt B p lam).σ × Vec D × Fl))
    (w : World (Vec D)) (ht : (algL opt B p lam).Trace env ncb hist w) (hn : ∀ r ∈ hist, ∀ e ∈ StL.pop r.1, e.Clean)
    (pre : List ((algL opt B p lam).σ × Vec D × Fl))
    (r' r : (algL opt B p lam).σ × Vec D × Fl) (rest : List ((algL opt B p lam).σ × Vec D × Fl)) (he : hist = pre ++ r' :: r :: rest) :
    let won := allArrivals (((r :: rest).map fun q => StL.pop q.1).take (p.k + 1))
    ∀ e ∈ StL.pop r'.1, e.rho = 1 ∨ ∃ o ∈ StL.pop r.1, e.x = o.x ∧ e.f = o.f ∧ e.rho =
      if (rest.length + 1) % p.k = 0 then
        if Fl.ofNat won / Fl.ofNat p.k < lit 1 5 then p.cR * o.rho else if lit 1 5 < Fl.ofNat won / Fl.ofNat p.k then p.cA * o.rho else o.rho
      else o.rho := by
  have hcount := fun {hist w} (h : (algL opt B p lam).Trace env ncb hist w) => ((verifiedL opt B p lam).toIf.trace_count env (metBy_none _ _) h).1
  suffices key : (∀ r rest, hist = r :: rest → (StL.ki r.1) = allArrivals ((hist.map fun q => StL.pop q.1).take (rest.length % p.k + 2))) ∧
      ∀ pre r' r rest, hist = pre ++ r' :: r :: rest → ∀ e ∈ StL.pop r'.1, e.rho = 1 ∨ ∃ o ∈ StL.pop r.1, e =
        if (rest.length + 1) % p.k = 0 then { o with rho := factor p (allArrivals (((r :: rest).map fun q => StL.pop q.1).take (p.k + 1))) o.rho } else o by
    intro won e hm
    refine (key.2 pre r' r rest he e hm).imp_right fun ⟨o, ho, h⟩ => ⟨o, ho, ?_⟩
    rw [h]
    split
    · refine ⟨rfl, rfl, ?_⟩
      change factor p won o.rho = _
      unfold factor
      split
      · rfl
      · split <;> rfl
    · exact ⟨rfl, rfl, rfl⟩
  clear he pre r' r rest
  induction ht with
  | @start r w hs =>
    obtain ⟨w1, h1, -⟩ := start_init hs
    have hi : Post env (initL opt B p.mu) fun s : StL D => s.ki = 0 := .bind' .any fun _ _ => .pure' rfl
    refine ⟨fun r' rest h => ?_, fun pre r' r rest h => ?_⟩
    · cases h
      exact hi _ _ _ h1
    · have := congrArg List.length h
      simp at this
      omega
  | @round r r' hist w w' hprev hs hr ih =>
    obtain ⟨w1, w2, h1, h2, -⟩ := round_iter hr
    have hlen := hcount hprev
    have hit : w1.st.iters = hist.length := by rw [h2]; simpa using hlen.symm
    have ih := ih fun q hq => hn q (List.mem_cons_of_mem _ hq)
    obtain ⟨hk, hki, hrho⟩ := iterL_full (s := r.1) h1 (hn r' List.mem_cons_self)
    rw [hit] at hki hrho
    have hold := ih.1 _ _ rfl
    refine ⟨fun a rest h => ?_, fun pre a' a rest h => ?_⟩
    · cases h
      rw [hki]
      simp only [List.map_cons, List.length_cons]
      rw [allArrivals_cons, add_comm]
      congr 1
      rcases next_mod (n := hist.length) hk with ⟨hz, -⟩ | ⟨hz, hm⟩
      · rw [if_pos hz, hz]; rfl
      · rw [if_neg hz, hold, List.map_cons, hm]
    · cases pre with
      | nil =>
        cases h
        intro e hm
        refine (hrho e hm).imp_right fun ⟨o, ho, h⟩ => ⟨o, ho, ?_⟩
        rw [h]
        rcases next_mod (n := hist.length) hk with ⟨hz, hm⟩ | ⟨hz, -⟩
        · have h1 : p.k - 1 + 2 = p.k + 1 := by omega
          rw [if_pos hz, if_pos hz, hold, hm, h1]
        · rw [if_neg hz, if_neg hz]
      | cons b pre =>
        rw [List.cons_append, List.cons.injEq] at h
        exact ih.2 _ _ _ _ h.2

/-- The rule at work: a run of ES(mu+lambda) without NaN in which both step sizes other than 1 and arrivals occur. -/
example : letI := NiaPy.Ex.arith
    (match ((algL .minimization (NiaPy.Ex.box 2) ⟨2, 2, .fin (11 / 10), .fin (1 / 2), .fin 0⟩ 1).execBody (NiaPy.Ex.env2 (D := 2) 2) 0 5).1 with
      | .ok r => (StL.pop r.1).any (fun e => decide (e.rho ≠ 1)) && (StL.pop r.1).all (fun e => decide (e.f ≠ .nan ∧ ∀ j, e.x j ≠ .nan))
      | _ => false) = true := by decide +kernel

end NiaPy.ES
