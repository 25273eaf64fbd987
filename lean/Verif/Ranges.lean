import Verif.Algo.SHADEProps
import Verif.Algo.LOAShape
import Verif.Algo.FSS
import Verif.Algo.GSO
import Verif.Sizes

/-!
# Parents in SHADE (C50), weights of fish and ranges of glowworms (C105)
-/

namespace NiaPy
variable [Arith] {D : ℕ} {env : Env (Vec D)}

omit [Arith] in
theorem Post.eachFin {X σ : Type} {env : Env X} {n : ℕ} {f : Fin n → σ → Prog X σ} (J : σ → Prop) {s : σ} (h0 : J s) (h : ∀ i s, J s → Post env (f i s) J) :
    Post env (NiaPy.forFin n f s) J := by
  induction n generalizing s with
  | zero => exact Post.pure' (P := J) h0
  | succ n ih => exact Post.bind (h 0 s h0) fun a ha => ih ha fun i => h i.succ

/-! ### SHADE -/

namespace SHADE
open DE JDE

/-- `y` is a trial vector made by `cross_curr2pbest1` from the population `l` and the archive: individual `b` is one of the first `pnum` ones, `r1` and `r2` are
two others than the target `ic`, the second one possibly from the archive; every coordinate comes from the mutant or from the target, number `j` from the
mutant; coordinates outside the bounds are replaced by the middle of the bound and that of the target. -/
def Trial (B : Box D) (l : List (Ind D SA)) (arc : List (Vec D)) (cnt pnum : ℕ) (ic : Fin l.length) (e : SA) (y : Vec D) : Prop :=
  ∃ b r1 : Fin l.length, ∃ (r2 : ℕ) (x2 v : Vec D) (j : Fin D), (b : ℕ) < pnum ∧ r1 ≠ ic ∧ r2 < l.length + cnt ∧ r2 ≠ ic ∧ r2 ≠ r1 ∧
    (if l.length ≤ r2 then arc[r2 - l.length]? = some x2 else ∃ a, l[r2]? = some a ∧ a.x = x2) ∧
    (∀ i, v i = (l.get ic).x i + e.f * ((l.get b).x i - (l.get ic).x i) + e.f * ((l.get r1).x i - x2 i) ∨ v i = (l.get ic).x i) ∧
    v j = (l.get ic).x j + e.f * ((l.get b).x j - (l.get ic).x j) + e.f * ((l.get r1).x j - x2 j) ∧
    ∀ i, (¬ v i < B.lo i → ¬ B.hi i < v i → y i = v i) ∧
      (v i < B.lo i → ¬ B.hi i < (B.lo i + (l.get ic).x i) / Fl.ofNat 2 → y i = (B.lo i + (l.get ic).x i) / Fl.ofNat 2) ∧
      (B.hi i < v i → ¬ v i < B.lo i → y i = (B.hi i + (l.get ic).x i) / Fl.ofNat 2)

omit [Arith] in
theorem pick_post {n : ℕ} {ok : ℕ → Bool} : Post env (pick n ok) fun k => k < n ∧ ok k = true := by
  refine .bind' (.yields .perm) fun l hl => ?_
  split
  · exact LOA.Post.throw
  · rename_i a t h
    have ha : a ∈ l.filter ok := by rw [h]; exact List.mem_cons_self
    obtain ⟨h1, h2⟩ := List.mem_filter.1 ha
    exact .pure' ⟨List.mem_range.1 (hl.mem_iff.1 h1), h2⟩

omit [Arith] in
theorem row_some {α : Type} {l : List α} {i : ℕ} {a : α} (h : row l i = .ok a) : l[i]? = some a := by
  unfold row at h
  split at h
  · cases h
  · cases h; assumption

omit [Arith] in
theorem row_get {l : List (Ind D SA)} {i : ℕ} {a : Vec D} (h : row (l.map (·.x)) i = .ok a) : ∃ k : Fin l.length, k = i ∧ (l.get k).x = a := by
  have h := row_some h
  rw [List.getElem?_map, Option.map_eq_some_iff] at h
  obtain ⟨e, h1, h2⟩ := h
  obtain ⟨hlt, h3⟩ := List.getElem?_eq_some_iff.1 h1
  exact ⟨⟨i, hlt⟩, rfl, by rw [← h2, ← h3]; rfl⟩

omit [Arith] in
theorem binomial_post {cr : Fl} {j : Fin D} {old mutant : Vec D} :
    Post env (binomial cr j old mutant) fun v => ∀ i, (v i = mutant i ∨ v i = old i) ∧ (i = j → v i = mutant i) :=
  Post.tabM (P := fun i u => (u = mutant i ∨ u = old i) ∧ (i = j → u = mutant i)) fun i => .bind' .any fun r _ => .pure'
    ⟨by split <;> [exact .inl rfl; exact .inr rfl], fun hij => if_pos (.inr hij)⟩

/-- C50 for SHADE, L-SHADE and ILSHADE. -/
theorem C50_cross (B : Box D) (l : List (Ind D SA)) (arc : List (Vec D)) (cnt pnum : ℕ) (ic : Fin l.length) (e : SA) :
    Post env (cross B l arc cnt pnum ic e) (Trial B l arc cnt pnum ic e) := by
  refine .bind' (.yields .int) fun b hb => .bind' pick_post fun r1 h1 => .bind' pick_post fun r2 h2 => .bind' .any fun j _ =>
    .bind' (.ofExcept fun a ha => ha) fun xb hxb => .bind' (.ofExcept fun a ha => ha) fun x1 hx1 => .bind' (.ofExcept fun a ha => ha) fun x2 hx2 =>
    .bind' binomial_post fun v hv => .pure' ?_
  obtain ⟨kb, rfl, rfl⟩ := row_get hxb
  obtain ⟨k1, rfl, rfl⟩ := row_get hx1
  simp only [decide_eq_true_iff] at h1 h2
  refine ⟨kb, k1, r2, x2, v, j, hb, fun h => h1.2 (congrArg Fin.val h), h2.1, h2.2.1, h2.2.2, ?_, fun i => (hv i).1, (hv j).2 rfl, fun i => ?_⟩
  · unfold donor at hx2
    split at hx2
    · rw [if_pos ‹_›]
      exact row_some hx2
    · rw [if_neg ‹_›]
      obtain ⟨k, rfl, rfl⟩ := row_get hx2
      exact ⟨l.get k, by simp, rfl⟩
  · show (_ → _ → parentMedium B _ v i = _) ∧ (_ → _ → parentMedium B _ v i = _) ∧ (_ → _ → parentMedium B _ v i = _)
    unfold parentMedium
    refine ⟨fun h1 h2 => ?_, fun h1 h2 => ?_, fun h1 h2 => ?_⟩
    · simp only [if_neg h1, if_neg h2]
    · simp only [if_pos h1]
      exact if_neg h2
    · simp only [if_neg h2, if_pos h1]
      rfl

omit [Arith] in
theorem mem_removeWorst {l : List (Ind D SA)} {e : Ind D SA} (h : e ∈ removeWorst l) : e ∈ l := List.mem_of_mem_eraseIdx h

omit [Arith] in
theorem mem_remove {n : ℕ} {l : List (Ind D SA)} {e : Ind D SA} (h : e ∈ remove n l) : e ∈ l := by
  induction n generalizing l with
  | zero => exact h
  | succ n ih => exact mem_removeWorst (ih h)

theorem evolve_post (B : Box D) (p : Par) (s : St D) (l : List (Ind D SA)) :
    Post env (evolve B p s l) fun new => ∃ pnum, pNum s.pb l.length = .ok pnum ∧
      ∀ i, ∃ y, Trial B l s.arc s.cnt pnum i (new i).ext y ∧ ∃ rng k, (new i).x = env.repairFn rng k y := by
  refine .bind' .any fun v _ => .bind' .any fun ps _ => .bind' (.ofExcept fun a ha => ha) fun pnum hp => .bind' (.tabM fun i => C50_cross _ _ _ _ _ _ _) fun xs hxs => ?_
  refine (Post.tabM (P := fun i (e : Ind D SA) => ∃ y, Trial B l s.arc s.cnt pnum i e.ext y ∧ ∃ rng k, e.x = env.repairFn rng k y) fun i => ?_).mono fun new hnew => ⟨pnum, hp, hnew⟩
  refine .bind' (Post.repair (P := fun c => ∃ rng k, c = env.repairFn rng k _) fun rng k => ⟨rng, k, rfl⟩) fun x hx => .bind' .any fun v _ => .pure' ⟨xs i, hxs i, hx⟩

/-- C50 for SHADE, L-SHADE and ILSHADE, as seen from outside: every member of the next population is a member of the present one or a repaired trial vector, whose
`pbest` parent is among the best `p_num` members (at least two). -/
theorem C50_shade (B : Box D) (p : Par) (s : St D) (xb : Vec D) (fxb : Fl) :
    Post env (iter B p s xb fxb) fun r => ∃ l : List (Ind D SA), l.Perm s.pop ∧ l.Pairwise (fun a b => leNanLast a.f b.f) ∧ ∃ pnum, 2 ≤ pnum ∧
      ∀ e ∈ r.1.pop, e ∈ s.pop ∨ ∃ ic y, Trial B l s.arc s.cnt pnum ic e.ext y ∧ ∃ rng k, e.x = env.repairFn rng k y := by
  refine .bind' (.yields .sortRecs) fun l hl => .bind' (evolve_post B p s l) fun new ⟨pnum, hp, hnew⟩ => .bind' .any fun size _ => .bind' .any fun a _ =>
    .bind' .any fun b _ => .bind' (P := fun s' : St D => ∀ e ∈ s'.pop, e ∈ survivors l new) ?_ fun s' hs' => .bind' .any fun b' _ => .pure' ?_
  · have hL : ∀ q : St D, (learn p (successes l new) q).pop = q.pop := fun q => by unfold learn; split <;> rfl
    unfold post
    refine LOA.Post.ite (fun _ => .bind' .any fun v _ => LOA.Post.ite (fun _ => LOA.Post.throw) fun _ => .bind' .any fun m _ => .ofExcept fun q hq => ?_) fun _ => .pure' ?_
    · unfold reduceTo at hq
      split at hq
      · cases hn : nextArc p m with
        | error e => rw [hn] at hq; cases hq
        | ok c =>
          rw [hn] at hq
          cases hq
          intro e he
          have := mem_remove he
          rwa [hL] at this
      · cases hq
        intro e he
        rwa [hL] at he
    · intro e he
      rwa [hL] at he
  · refine ⟨l, hl.1, hl.2, pnum, ?_, fun e he => ?_⟩
    · unfold pNum at hp
      cases hr : roundInt (Fl.ofNat l.length * s.pb) with
      | error e => rw [hr] at hp; cases hp
      | ok z =>
        rw [hr] at hp
        cases hp
        show 2 ≤ (max 2 z).toNat
        have : 2 ≤ max 2 z := le_max_left _ _
        omega
    · obtain ⟨i, rfl⟩ := (List.mem_ofFn' _ _).1 (hs' e he)
      dsimp only
      split
      · exact .inr ⟨i, hnew i⟩
      · exact .inl (hl.1.mem_iff.1 (l.get_mem i))

end SHADE

/-! ### Fish school search -/

namespace FSS
variable {N : ℕ}

/-- No fish is lighter than `lo` or heavier than `hi`. -/
def Within (lo hi : Fl) (school : Fin N → Fish D) : Prop := ∀ i, ¬ (school i).weight < lo ∧ ¬ hi < (school i).weight

theorem clipF_within {x lo hi : Fl} (h : ¬ hi < lo) : ¬ clipF x lo hi < lo ∧ ¬ hi < clipF x lo hi := by
  unfold clipF
  dsimp only
  by_cases h1 : x < lo
  · rw [if_pos h1, if_neg h]
    exact ⟨Fl.lt_irrefl _, h⟩
  · rw [if_neg h1]
    by_cases h2 : hi < x
    · rw [if_pos h2]
      exact ⟨h, Fl.lt_irrefl _⟩
    · rw [if_neg h2]
      exact ⟨h1, h2⟩

theorem feeding_within (p : Par) (hp : ¬ p.wScale < p.minW) (school : Fin N → Fish D) : Post env (feeding p school) (Within p.minW p.wScale) := by
  unfold feeding
  exact LOA.Post.ite (fun _ => LOA.Post.throw) fun _ => .pure' fun i => clipF_within hp

theorem iter_within (p : Par) (hp : ¬ p.wScale < p.minW) (s : St D N) (xb : Vec D) (fxb : Fl) :
    Post env (iter p s xb fxb) fun r => Within p.minW p.wScale r.1.school := by
  unfold iter
  refine .bind' .any fun a _ => .bind' (feeding_within p hp _) fun sc h1 => .bind' (P := Within p.minW p.wScale) ?_ fun sc h2 =>
    .bind' (P := fun a => Within p.minW p.wScale a.1) ?_ fun a h3 => .bind' .any fun v _ => .pure' h3
  · exact Post.tabM (P := fun _ (f : Fish D) => ¬ f.weight < p.minW ∧ ¬ p.wScale < f.weight) fun i => .bind' .any fun x _ => .pure' (h1 i)
  · refine Post.eachFin (fun a : (Fin N → Fish D) × Vec D × Fl => Within p.minW p.wScale a.1) h2 fun i a ha => .bind' .any fun u _ => .bind' .any fun e _ => .pure' fun k => ?_
    by_cases hk : k = i
    · subst hk
      simpa using ha k
    · simpa [hk] using ha k

/-- C105 for fish school search: from the first iteration on no fish is lighter than `min_w` or heavier than `w_scale`; if half of `w_scale` is within these limits, not before
either. -/
theorem C105_fss {opt : OptType} {B : Box D} {p : Par} (hp : ¬ p.wScale < p.minW) {ncb : ℕ} {hist pre rest : List ((alg opt B N p).σ × Vec D × Fl)} {r : (alg opt B N p).σ × Vec D × Fl}
    {w : World (Vec D)} (ht : (alg opt B N p).Trace env ncb hist w) (he : hist = pre ++ r :: rest)
    (h : rest ≠ [] ∨ ¬ p.wScale / Fl.ofNat 2 < p.minW ∧ ¬ p.wScale < p.wScale / Fl.ofNat 2) : Within p.minW p.wScale (St.school (D := D) (N := N) r.1) := by
  have key := ht.after (P := fun n s => n ≠ 0 ∨ (¬ p.wScale / Fl.ofNat 2 < p.minW ∧ ¬ p.wScale < p.wScale / Fl.ofNat 2) → Within p.minW p.wScale (St.school (D := D) (N := N) s))
    (.bind' .any fun pop _ => .pure' fun h i => h.resolve_left fun h => h rfl) (fun n s xb fxb _ => (iter_within p hp s xb fxb).mono fun r hr _ => hr) he
  exact key (h.imp_left fun h0 h1 => h0 (List.length_eq_zero_iff.1 h1))

omit [Arith] in
/-- C105 is false of the first population: with `w_scale = 1` (half of the number of iterations, as recommended) and `min_w = 1` all fish begin with the weight 1/2. -/
theorem C105_initial_false {fn : Fn → Fl → Fl} {opt : OptType} {B : Box D} {a b c d : Fl} : letI := exactArith fn
    Post env (init opt B N ⟨a, b, c, d, .fin 1, .fin 1⟩) fun s => ∀ i, (s.school i).weight = .fin (1 / 2) ∧ (s.school i).weight < .fin 1 := by
  letI := exactArith fn
  refine .bind' .any fun pop _ => .pure' fun i => ?_
  have h : (Fl.fin 1 / Fl.ofNat 2 : Fl) = .fin (1 / 2) := Exact.div_fin fn 1 2 (by norm_num)
  refine ⟨h, ?_⟩
  show (Fl.fin 1 / Fl.ofNat 2 : Fl) < _
  rw [h, Fl.fin_lt_fin]
  norm_num

/-- The hypotheses of `C105_fss` hold of the default parameters. -/
example : letI := Ex.arith; ¬ (Fl.fin 500 < Fl.fin 1) ∧ ¬ (Fl.fin 500 / Fl.ofNat 2 < Fl.fin 1) ∧ ¬ (Fl.fin 500 < Fl.fin 500 / Fl.ofNat 2) := by decide +kernel

end FSS

/-! ### Glowworm swarm optimization -/

namespace GSO
variable {N : ℕ}

omit [Arith] in
theorem clampRange_within {s r : Fl} (hs : (0 : Fl) ≤ s) : (0 : Fl) ≤ clampRange s r ∧ clampRange s r ≤ s := by
  unfold clampRange
  dsimp only
  by_cases h : r < s
  · rw [if_pos h]
    split
    · exact ⟨Fl.le_of_lt ‹_›, Fl.le_of_lt h⟩
    · exact ⟨Fl.le_refl nofun, hs⟩
  · rw [if_neg h]
    split
    · exact ⟨hs, Fl.le_refl fun e => by rw [e] at hs; exact absurd hs (by decide)⟩
    · exact ⟨Fl.le_refl nofun, hs⟩

/-- C105 for glowworm swarm optimization (all variants): the range within which a glowworm looks for neighbours is between 0 and the length of the diagonal of the search space. -/
theorem C105_gso {B : Box D} {p : Par D} (hs : (0 : Fl) ≤ sensing B) {ncb : ℕ} {hist : List ((alg B N p).σ × Vec D × Fl)} {w : World (Vec D)}
    (ht : (alg B N p).Trace env ncb hist w) : ∀ r ∈ hist, ∀ i, (0 : Fl) ≤ (St.ranges (D := D) (N := N) r.1) i ∧ (St.ranges (D := D) (N := N) r.1) i ≤ sensing B := by
  have hle : sensing B ≤ sensing B := Fl.le_refl fun e => by rw [e] at hs; exact absurd hs (by decide)
  refine ht.always (P := fun s => ∀ i, (0 : Fl) ≤ (St.ranges (D := D) (N := N) s) i ∧ (St.ranges (D := D) (N := N) s) i ≤ sensing B) ?_ fun s xb fxb _ => ?_
  · exact .bind' .any fun a _ => .pure' fun i => ⟨hs, hle⟩
  · exact .bind' .any fun j _ => .bind' .any fun pop _ => .bind' .any fun fit _ => .bind' .any fun b _ => .pure' fun i => clampRange_within hs

/-- The hypothesis of `C105_gso` holds of an interval. -/
example : letI := Ex.arith; (0 : Fl) ≤ sensing (Ex.box 1) := by decide +kernel

end GSO

end NiaPy
