import Verif.Recombine
import Verif.GreedyProps
import Verif.Algo.CLONALG
import Verif.Algo.BEA
import Verif.Algo.FOA
import Verif.Algo.DynFWA
import Verif.Algo.SHADEProps

/-!
# The best individuals stay in the population (C116)
-/

namespace NiaPy
variable [Arith] {D N : ℕ} {env : Env (Vec D)} {opt : OptType} {B : Box D}

/-- For every old fitness value there is a new one that is not worse (NaN is worse than anything else). -/
def Dominated (old new : List Fl) : Prop := ∀ v ∈ old, ∃ v' ∈ new, leNanLast v' v

omit [Arith] in
theorem leNanLast.refl (v : Fl) : leNanLast v v := by
  by_cases h : v = .nan
  · exact .inl h
  · exact .inr (Fl.le_refl h)

omit [Arith] in
theorem leNanLast.trans {a b c : Fl} (h : leNanLast a b) (h' : leNanLast b c) : leNanLast a c := by
  rcases h' with h' | h'
  · exact .inl h'
  · rcases h with rfl | h
    · exact absurd h' (by simp)
    · exact .inr (Fl.le_trans h h')

omit [Arith] in
theorem NotWorse.last {a b : Fl} (h : NotWorse a b) : leNanLast a b := by
  rcases h with rfl | h
  · exact .refl _
  · exact .inr h

omit [Arith] in
theorem Dominated.refl (l : List Fl) : Dominated l l := fun v hv => ⟨v, hv, .refl v⟩

omit [Arith] in
theorem Dominated.trans {a b c : List Fl} (h : Dominated a b) (h' : Dominated b c) : Dominated a c := fun v hv => by
  obtain ⟨u, hu, h1⟩ := h v hv
  obtain ⟨t, ht, h2⟩ := h' u hu
  exact ⟨t, ht, h2.trans h1⟩

omit [Arith] in
/-- The first ones of a sorted list. -/
theorem keeps_take {α : Type} {val : α → Fl} {l r : List α} (hp : r.Perm l) (hs : r.Pairwise fun a b => leNanLast (val a) (val b)) {n : ℕ} (hn : 0 < n) {a : α}
    (ha : a ∈ l) : ∃ b ∈ r.take n, leNanLast (val b) (val a) := by
  have ha := hp.mem_iff.2 ha
  obtain ⟨n, rfl⟩ : ∃ m, n = m + 1 := ⟨n - 1, by omega⟩
  cases r with
  | nil => simp at ha
  | cons b r =>
    refine ⟨b, by simp, ?_⟩
    rcases List.mem_cons.1 ha with rfl | ha
    · exact .refl _
    · exact (List.pairwise_cons.1 hs).1 a ha

/-- A relation between consecutive states, from what an iteration guarantees. -/
theorem Alg.Trace.link {X : Type} {A : Alg X} {env : Env X} {ncb : ℕ} {hist : List (A.σ × X × Fl)} {w : World X} (ht : A.Trace env ncb hist w)
    {R : A.σ × X × Fl → A.σ × X × Fl → Prop} (h : ∀ r, Post env (A.iter r.1 r.2.1 r.2.2) fun r' => R r' r) : hist.IsChain R :=
  (ht.post (P := fun _ => True) (fun _ _ _ _ => trivial) fun r _ => (h r).mono fun _ h => ⟨trivial, h⟩).2

/-! ### Evolution strategies -/

namespace ES

omit [Arith] in
theorem accept_keeps (s : St D) (b : Vec D × Fl) (xb : Vec D) (fxb : Fl) : leNanLast (accept s b xb fxb).1.c.f s.c.f := by
  unfold accept
  split
  · rename_i h
    split
    · exact .inr (Fl.le_of_lt h)
    · exact .inr (Fl.le_of_lt h)
  · exact .refl _

theorem iter_keeps (p : Par) (s : St D) (xb : Vec D) (fxb : Fl) : Post env (iter p s xb fxb) fun r => leNanLast r.1.c.f s.c.f := by
  refine .bind' .any fun v _ => LOA.Post.ite (fun _ => LOA.Post.throw) fun _ => .bind' .any fun _ _ => .bind' .any fun _ _ => .bind' .any fun b _ => .pure' ?_
  refine (accept_keeps _ b xb fxb).trans ?_
  unfold adapt
  split <;> exact .refl _

theorem iterL_keeps (p : Par) (hmu : 0 < p.mu) (lam : ℕ) (s : StL D) (xb : Vec D) (fxb : Fl) : Post env (iterL p lam s xb fxb) fun r =>
    Dominated (s.pop.map (·.f)) (r.1.pop.map (·.f)) := by
  have had : ∀ v, (adaptL p v s).pop.map (·.f) = s.pop.map (·.f) := fun v => by
    unfold adaptL
    split
    · simp only [updateRhos]
      split
      · simp
      · split <;> simp
    · rfl
  refine .bind' .any fun v _ => LOA.Post.ite (fun _ => LOA.Post.throw) fun _ => .bind' .any fun cn _ => .bind' (.yields Yields.sortRecs) fun l hl => .bind' .any fun b _ => .pure' ?_
  intro f hf
  rw [← had v.iters] at hf
  obtain ⟨e, he, rfl⟩ := List.mem_map.1 hf
  obtain ⟨e', he', hle⟩ := keeps_take hl.1 hl.2 hmu (a := (e, true)) (List.mem_append_right _ (List.mem_map_of_mem he))
  exact ⟨e'.1.f, List.mem_map_of_mem (f := fun e : Ind D => e.f) (List.mem_map_of_mem (f := fun e : Ind D × Bool => e.1) he'), hle⟩

end ES

/-! ### Clonal selection -/

namespace CLONALG
variable {b : ℕ}

omit [Arith] in
theorem select_keeps {N : ℕ} (hN : 0 < N) (l : List (Ab D b)) : Post env (select N l) fun r => Dominated (l.map (·.f)) (r.map (·.f)) := by
  refine .bind' (.yields Yields.sortRecs) fun r hr => .pure' fun f hf => ?_
  obtain ⟨e, he, rfl⟩ := List.mem_map.1 hf
  obtain ⟨e', he', hle⟩ := keeps_take hr.1 hr.2 hN he
  exact ⟨e'.f, List.mem_map_of_mem he', hle⟩

omit [Arith] in
theorem keeps_append {l m : List (Ab D b)} {r : List Fl} (h : Dominated ((l ++ m).map (·.f)) r) : Dominated (l.map (·.f)) r := fun v hv => h v (by
  rw [List.map_append]
  exact List.mem_append_left _ hv)

theorem iter_keeps (hN : 0 < N) (p : Par) (s : List (Ab D b)) (xb : Vec D) (fxb : Fl) : Post env (iter B N p s xb fxb) fun r => Dominated (s.map (·.f)) (r.1.map (·.f)) := by
  refine .bind' (P := fun r => Dominated (s.map (·.f)) (r.map (·.f))) (.bind' .any fun c _ => .bind' .any fun n _ => (select_keeps hN _).mono fun r h => keeps_append h) fun s1 h1 => .bind' .any fun x _ =>
    .bind' (P := fun r => Dominated (s1.map (·.f)) (r.map (·.f))) (LOA.Post.ite (fun _ => .pure' (.refl _)) fun _ => .bind' .any fun c _ => .bind' .any fun n _ =>
      (select_keeps hN _).mono fun r h => keeps_append h) fun s2 h2 => .bind' .any fun _ _ => .pure' (h1.trans h2)

end CLONALG

/-! ### The Nelder-Mead method -/

namespace NM

theorem iter_keeps (p : Par) (hN : 2 ≤ N) (s : St D N) (xb : Vec D) (fxb : Fl) : Post env (iter p s xb fxb) fun r => Dominated (List.ofFn s.fit) (List.ofFn r.1.fit) := by
  refine .bind' (.yields Yields.sortIdx) fun si ⟨hb, hs⟩ => .bind' (C115_simplex p _ (by omega)) fun s' h => .bind' .any fun _ _ => .pure' fun v hv => ?_
  obtain ⟨i, rfl⟩ := List.mem_ofFn.1 hv
  obtain ⟨k, rfl⟩ := hb.2 i
  refine ⟨s'.fit ⟨0, by omega⟩, List.mem_ofFn.2 ⟨_, rfl⟩, ?_⟩
  have h0 : s'.fit ⟨0, by omega⟩ = s.fit (si ⟨0, by omega⟩) := by
    rcases h with h | h
    · exact (h.1 ⟨0, by omega⟩ (by simp; omega)).2
    · exact h.2.1
  rw [h0]
  by_cases hk : k.1 = 0
  · have : k = ⟨0, by omega⟩ := Fin.ext hk
    rw [← this]
    exact .refl _
  · exact hs _ _ (Fin.mk_lt_of_lt_val (by omega))

end NM

/-! ### SHADE -/

namespace SHADE

theorem keep_survivors {l : List (DE.Ind D JDE.SA)} {new : Fin l.length → DE.Ind D JDE.SA} {e : DE.Ind D JDE.SA} (he : e ∈ l) :
    ∃ e' ∈ survivors l new, leNanLast e'.f e.f := by
  obtain ⟨i, rfl⟩ := List.get_of_mem he
  refine ⟨_, List.mem_ofFn.2 ⟨i, rfl⟩, ?_⟩
  split
  · exact .inr ‹_›
  · exact .refl _

end SHADE

/-! ### Fireworks that compare with what they had -/

namespace FWA

theorem bbIter_keeps (p : BBPar) (s : BBSt D) (xb : Vec D) (fxb : Fl) : Post env (bbIter p s xb fxb) fun r => leNanLast r.1.f s.f := by
  refine .bind' .any fun ys _ => .bind' .any fun xs _ => .bind' .any fun fs _ => .bind' .any fun i _ => .pure' ?_
  split
  · exact .inr (Fl.le_of_lt ‹_›)
  · exact .refl _

theorem selectionE_keeps (s : St D N) (sparks : List (Vec D)) : Post env (selectionE s sparks) fun r => ∀ i, leNanLast (r.1.fit i) (s.fit i) := by
  refine .bind' .any fun r _ => .bind' .any fun b _ => .bind' (Post.tabM (P := fun i (a : Vec D × Fl) => leNanLast a.2 (s.fit i)) fun i => LOA.Post.ite (fun _ => .pure' ?_) fun _ =>
    .bind' .any fun k _ => .pure' ?_) fun new h => .pure' h
  · split
    · exact .inr (Fl.le_of_lt ‹_›)
    · exact .refl _
  · split
    · exact .inr (Fl.le_of_lt ‹_›)
    · exact .refl _

end FWA

/-! ### All of them -/

/-- Algorithms whose survivor selection is elitist. -/
inductive Elitist (opt : OptType) (B : Box D) : Alg (Vec D) → Prop
  | greedy {A : Alg (Vec D)} (h : OneToOne opt B A) : Elitist opt B A
  | es1 (p) : Elitist opt B (ES.alg1 opt B p)
  | es (p) (lam) (h : 0 < p.mu) : Elitist opt B (ES.algL opt B p lam)
  | clonalg (b N p) (h : 0 < N) : Elitist opt B (CLONALG.alg B b N p)
  | nm (N p) (h : 2 ≤ N) : Elitist opt B (NM.alg B N p)
  | bbfwa (p) : Elitist opt B (FWA.bbAlg B p)
  | efwa (N p a0 a1) : Elitist opt B (FWA.algE B N p a0 a1)
  | shade (p : SHADE.Par) (h : p.lpsr = false) : Elitist opt B (SHADE.alg opt B p)

/-- C116: at the head of every iteration, for each fitness value of the population before there is one that is not worse: the best of the population never
gets worse. -/
theorem C116_elitist {A : Alg (Vec D)} (hA : Elitist opt B A) (env : Env (Vec D)) (ncb : ℕ) (hist : List (A.σ × Vec D × Fl)) (w : World (Vec D))
    (h : A.Trace env ncb hist w) : hist.IsChain fun r' r => ∀ v ∈ A.fit r.1, ∃ v' ∈ A.fit r'.1, leNanLast v' v := by
  cases hA with
  | greedy hA =>
    refine (C32_greedy hA env ncb hist w h).imp fun a b hab v hv => ?_
    obtain ⟨i, hi, rfl⟩ := List.getElem_of_mem hv
    have hl := hab.length_eq
    exact ⟨_, List.getElem_mem (by omega), NotWorse.last ((List.forall₂_iff_get.1 hab).2 i (by omega) hi)⟩
  | es1 p =>
    refine h.link fun r => (ES.iter_keeps p r.1 r.2.1 r.2.2).mono fun r' hr v hv => ⟨_, List.mem_singleton.2 rfl, ?_⟩
    cases List.mem_singleton.1 hv
    exact hr
  | es p lam hmu => exact h.link fun r => ES.iterL_keeps p hmu lam r.1 r.2.1 r.2.2
  | clonalg b N p hN => exact h.link fun r => CLONALG.iter_keeps hN p r.1 r.2.1 r.2.2
  | nm N p hN => exact h.link fun r => NM.iter_keeps p hN r.1 r.2.1 r.2.2
  | bbfwa p =>
    refine h.link fun r => (FWA.bbIter_keeps p r.1 r.2.1 r.2.2).mono fun r' hr v hv => ⟨_, List.mem_singleton.2 rfl, ?_⟩
    cases List.mem_singleton.1 hv
    exact hr
  | efwa N p a0 a1 =>
    refine h.link fun r => .bind' .any fun _ _ => .bind' .any fun _ _ => .bind' .any fun _ _ => .bind' .any fun _ _ => .bind' .any fun l _ => (FWA.selectionE_keeps r.1 l).mono fun r' hr v hv => ?_
    obtain ⟨i, rfl⟩ := List.mem_ofFn.1 hv
    exact ⟨_, List.mem_ofFn.2 ⟨i, rfl⟩, hr i⟩
  | shade p hp =>
    refine h.chain (R := fun r' r => ∀ v ∈ (SHADE.alg opt B p).fit r.1, ∃ v' ∈ (SHADE.alg opt B p).fit r'.1, leNanLast v' v) fun r g => SHADE.iter_any r.1 r.2.1 r.2.2 g
      fun l new size a s' b hl _ _ _ hs v hv => ?_
    have hs := hs hp
    obtain ⟨e, he, rfl⟩ := List.mem_map.1 hv
    obtain ⟨e', he', hle⟩ := SHADE.keep_survivors (new := new) (hl.mem_iff.2 he)
    exact ⟨_, List.mem_map_of_mem (hs ▸ he'), hle⟩

/-! ### Bees -/

namespace BEA

theorem site_notWorse (n : ℕ) (i : Fin N) (s : St D N) : Post env (site n i s) fun s' => ∀ j, NotWorse (s'.fit j) (s.fit j) := by
  refine .bind' .any fun a _ => LOA.Post.ite (fun h => ?_) fun _ => .pure' fun j => .refl _
  split
  · exact .pure' (NotWorse.update (fun j => .refl _) i (Fl.le_of_lt h))
  · exact LOA.Post.throw

theorem randomBee_keeps (i : Fin N) (s : St D N) : Post env (randomBee B i s) fun s' => ∀ j, j ≠ i → s'.fit j = s.fit j :=
  .bind' .any fun _ _ => .bind' .any fun _ _ => .pure' fun _ hj => Function.update_of_ne hj _ _

theorem rangeLoop_post {σ : Type} {n a b : ℕ} {f : Fin n → σ → Prog (Vec D) σ} (J : σ → Prop) {s : σ} (h0 : J s) (h : ∀ i : Fin n, a ≤ i.1 → ∀ s, J s → Post env (f i s) J) :
    Post env (rangeLoop n a b f s) J := Post.eachFin J h0 fun i s hs => by
  split
  · exact h _ (by simp) s hs
  · exact LOA.Post.throw

theorem sorted_post (s : St D N) : Post env (sorted s) fun s' => (∀ i j, i < j → leNanLast (s'.fit i) (s'.fit j)) ∧ ∀ i, ∃ k, s'.fit k = s.fit i :=
  .bind' (.yields Yields.sortIdx) fun si hs => .pure' ⟨hs.2, fun i => (hs.1.2 i).imp fun k hk => by rw [← hk]⟩

/-- C116 for the bees algorithm with at least one selected site: the population is sorted, and its best never gets worse. -/
theorem C116_bees (p : Par) (hm : 0 < p.m) {ncb : ℕ} {hist : List ((alg B N p).σ × Vec D × Fl)} {w : World (Vec D)} (ht : (alg B N p).Trace env ncb hist w) :
    (∀ r ∈ hist, ∀ i j, i < j → leNanLast (St.fit (D := D) (N := N) r.1 i) (St.fit (D := D) (N := N) r.1 j)) ∧
    hist.IsChain fun r' r => ∀ i, ∃ k, leNanLast (St.fit (D := D) (N := N) r'.1 k) (St.fit (D := D) (N := N) r.1 i) := by
  refine ht.post (P := fun r => ∀ i j, i < j → leNanLast (St.fit (D := D) (N := N) r.1 i) (St.fit (D := D) (N := N) r.1 j))
    (R := fun r' r => ∀ i, ∃ k, leNanLast (St.fit (D := D) (N := N) r'.1 k) (St.fit (D := D) (N := N) r.1 i)) (fun s b hs _ => ?_) fun r hr => ?_
  · obtain ⟨w, w', hs⟩ := hs
    have : Post env (init (N := N) B p) fun s => ∀ i j, i < j → leNanLast (s.fit i) (s.fit j) := .bind' .any fun _ _ => (sorted_post _).mono fun _ h => h.1
    exact this _ _ _ hs
  · have hJ : ∀ (n : ℕ) (a b : ℕ) (s : St D N), (∀ j : Fin N, j.1 < p.m → NotWorse (s.fit j) (St.fit (D := D) (N := N) r.1 j)) →
        Post env (rangeLoop N a b (site n) s) fun s => ∀ j : Fin N, j.1 < p.m → NotWorse (s.fit j) (St.fit (D := D) (N := N) r.1 j) := fun n a b s hs =>
      rangeLoop_post _ hs fun i _ s hs => (site_notWorse n i s).mono fun s' h j hj => (h j).trans (hs j hj)
    refine .bind' (hJ _ _ _ _ fun j _ => .refl _) fun s1 h1 => .bind' (hJ _ _ _ _ h1) fun s2 h2 =>
      .bind' (P := fun s => ∀ j : Fin N, j.1 < p.m → NotWorse (s.fit j) (St.fit (D := D) (N := N) r.1 j)) (rangeLoop_post _ h2 fun i hi s hs =>
        (randomBee_keeps i s).mono fun s' h j hj => by rw [h j (fun h => by subst h; omega)]; exact hs j hj) fun s3 h3 => .bind' (sorted_post s3) fun s4 h4 => ?_
    split
    · rename_i hN
      refine .pure' ⟨h4.1, fun i => ?_⟩
      obtain ⟨k, hk⟩ := h4.2 ⟨0, hN⟩
      refine ⟨k, ?_⟩
      have hk' : leNanLast (s4.fit k) (St.fit (D := D) (N := N) r.1 ⟨0, hN⟩) := by rw [hk]; exact (h3 ⟨0, hN⟩ hm).last
      by_cases hi : i.1 = 0
      · have : i = ⟨0, hN⟩ := Fin.ext hi
        rw [this]
        exact hk'
      · exact hk'.trans (hr _ _ (Fin.mk_lt_of_lt_val (by omega)))
    · exact LOA.Post.throw

end BEA

/-! ### Butterflies -/

namespace MBO

theorem evalSort_post (pop : Fin N → Vec D) : Post env (evalSort pop) fun r => (∀ i j, i < j → leNanLast (r.2 i) (r.2 j)) ∧
    (∀ i, ∃ k, r.1 k = pop i) ∧ ∀ k, Possible env (r.1 k) (r.2 k) :=
  .bind' (P := fun f => ∀ i, Possible env (pop i) (f i)) (LOA.Post.ite (fun _ => LOA.Post.throw) fun _ => Post.tabM (P := fun i v => Possible env (pop i) v) fun i => .eval fun _ h => h)
    fun f hf => .bind' (.yields Yields.sortIdx) fun si hs => .pure' ⟨hs.2, fun i => (hs.1.2 i).imp fun k hk => by rw [← hk], fun k => hf _⟩

/-- C116 for monarch butterflies: the population is sorted, and the two best butterflies are in the next one, with a value that the objective gives them. -/
theorem C116_butterflies (p : Par) {ncb : ℕ} {hist : List ((alg B N p).σ × Vec D × Fl)} {w : World (Vec D)} (ht : (alg B N p).Trace env ncb hist w) :
    (∀ r ∈ hist, ∀ i j, i < j → leNanLast (St.fit (D := D) (N := N) r.1 i) (St.fit (D := D) (N := N) r.1 j)) ∧
    hist.IsChain fun r' r => ∀ i : Fin N, i.1 < 2 → ∃ k, St.pop (D := D) (N := N) r'.1 k = St.pop (D := D) (N := N) r.1 i ∧
      Possible env (St.pop (D := D) (N := N) r.1 i) (St.fit (D := D) (N := N) r'.1 k) := by
  refine ht.post (P := fun r => ∀ i j, i < j → leNanLast (St.fit (D := D) (N := N) r.1 i) (St.fit (D := D) (N := N) r.1 j))
    (R := fun r' r => ∀ i : Fin N, i.1 < 2 → ∃ k, St.pop (D := D) (N := N) r'.1 k = St.pop (D := D) (N := N) r.1 i ∧
      Possible env (St.pop (D := D) (N := N) r.1 i) (St.fit (D := D) (N := N) r'.1 k)) (fun s b hs _ => ?_) fun r _ => ?_
  · obtain ⟨w, w', hs⟩ := hs
    have : Post env (init B N) fun s => ∀ i j, i < j → leNanLast (s.fit i) (s.fit j) := .bind' .any fun _ _ => .bind' (.yields Yields.sortIdx) fun si hs => .pure' hs.2
    exact this _ _ _ hs
  · refine .bind' .any fun v _ => .bind' .any fun _ _ => .bind' .any fun _ _ => .bind' .any fun _ _ => .bind' .any fun _ _ => .bind' .any fun _ _ => .bind' .any fun p3 _ =>
      .bind' .any fun _ _ => .bind' (evalSort_post _) fun q hq => .bind' .any fun _ _ => .pure' ⟨hq.1, fun i hi => ?_⟩
    obtain ⟨k, hk⟩ := hq.2.1 ⟨N - min N 2 + i, by have := i.2; omega⟩
    have he : elitism (St.pop (D := D) (N := N) r.1) p3.1 ⟨N - min N 2 + i, by have := i.2; omega⟩ = St.pop (D := D) (N := N) r.1 i := by
      unfold elitism
      rw [dif_pos (by have := i.2; simp only; omega)]
      congr 1
      apply Fin.ext
      have := i.2
      simp only
      omega
    rw [he] at hk
    exact ⟨k, hk, hk ▸ hq.2.2 k⟩

end MBO

/-! ### Trees -/

namespace FOA

theorem mapM_post {α γ : Type} {l : List γ} {f : γ → Prog (Vec D) α} {P : γ → α → Prop} (h : ∀ b, Post env (f b) (P b)) :
    Post env (mapM' l f) fun r => List.Forall₂ P l r := by
  induction l with
  | nil => exact .pure' .nil
  | cons b l ih => exact .bind (h b) fun a ha => .bind ih fun r hr => .pure' (.cons ha hr)

theorem evalTrees_post (l : List (Vec D × ℕ)) : Post env (evalTrees l) fun r => List.Forall₂ (fun t t' => t'.x = t.1 ∧ t'.age = t.2 ∧ Possible env t'.x t'.f) l r :=
  LOA.Post.ite (fun _ => LOA.Post.throw) fun _ => mapM_post fun _ => .bind' (.eval fun _ h => h) fun _ h => .pure' ⟨rfl, rfl, h⟩

/-- The best tree is new. -/
def Fresh (l : List (Tree D)) : Prop := ∃ t ∈ l, t.age = 0 ∧ ∀ u ∈ l, t.f ≤ u.f

omit [Arith] in
theorem freshen_fresh {l : List (Tree D)} (hl : l ≠ []) (hn : ∀ t ∈ l, t.f ≠ .nan) : Fresh (freshen l) := by
  obtain ⟨k, m, hk, hm, hmin, -⟩ := argmin_spec (l.map (·.f)) (by simpa using hl) fun v hv => by
    obtain ⟨t, ht, rfl⟩ := List.mem_map.1 hv
    exact hn t ht
  obtain ⟨t, ht, rfl⟩ : ∃ t, l[k]? = some t ∧ t.f = m := by simpa using hm
  have hmod : freshen l = l.modify k fun t => { t with age := 0 } := by
    unfold freshen
    rw [hk]
  refine ⟨{ t with age := 0 }, ?_, rfl, fun u hu => ?_⟩
  · rw [hmod]
    exact List.mem_of_getElem? (i := k) (by rw [List.getElem?_modify, ht]; simp)
  · rw [hmod] at hu
    obtain ⟨j, hj⟩ := List.mem_iff_getElem?.1 hu
    rw [List.getElem?_modify] at hj
    obtain ⟨u', hu', rfl⟩ := Option.map_eq_some_iff.1 hj
    have := hmin u'.f (List.mem_map_of_mem (List.mem_of_getElem? hu'))
    split <;> exact this

omit [Arith] in
theorem freshen_has {l : List (Tree D)} {t : Tree D} (ht : t ∈ l) : ∃ t' ∈ freshen l, t'.x = t.x ∧ t'.f = t.f := by
  unfold freshen
  split
  · rename_i k _
    obtain ⟨j, hj⟩ := List.mem_iff_getElem?.1 ht
    refine ⟨if k = j then { t with age := 0 } else t, List.mem_of_getElem? (i := j) ?_, ?_⟩
    · rw [List.getElem?_modify, hj]
      split <;> rfl
    · split <;> exact ⟨rfl, rfl⟩
  · exact ⟨t, ht, rfl, rfl⟩

theorem forall₂_right {α γ : Type} {P : α → γ → Prop} {l : List α} {r : List γ} (h : List.Forall₂ P l r) {b : γ} (hb : b ∈ r) : ∃ a ∈ l, P a b := by
  obtain ⟨i, hi, rfl⟩ := List.getElem_of_mem hb
  have hl := h.length_eq
  exact ⟨l[i], List.getElem_mem _, (List.forall₂_iff_get.1 h).2 i (by omega) hi⟩

theorem forall₂_left {α γ : Type} {P : α → γ → Prop} {l : List α} {r : List γ} (h : List.Forall₂ P l r) {a : α} (ha : a ∈ l) : ∃ b ∈ r, P a b := by
  obtain ⟨i, hi, rfl⟩ := List.getElem_of_mem ha
  have hl := h.length_eq
  exact ⟨r[i], List.getElem_mem _, (List.forall₂_iff_get.1 h).2 i hi (by omega)⟩

/-- In place of every new tree there is one that is at least as good as what the objective says about it. -/
def Heirs (env : Env (Vec D)) (new old : List (Tree D)) : Prop := ∀ t ∈ old, t.age = 0 → ∃ t' ∈ new, ∃ v, Possible env t.x v ∧ t'.f ≤ v

theorem globalPhase_post (p : Par) (kept : List (Tree D)) (cs : List (Vec D)) (h : ∀ t ∈ kept, Possible env t.x t.f) : Post env (globalPhase B p kept cs) fun r =>
    (∀ t ∈ kept, t ∈ r) ∧ ∀ t ∈ r, Possible env t.x t.f := by
  refine LOA.Post.ite (fun _ => .bind' .any fun seeds _ => .bind' (evalTrees_post _) fun new hn => .pure' ⟨fun t ht => List.mem_append_left _ ht, fun t ht => ?_⟩)
    fun _ => .pure' ⟨fun _ h => h, h⟩
  rcases List.mem_append.1 ht with ht | ht
  · exact h t ht
  · obtain ⟨u, -, hu⟩ := forall₂_right hn ht
    exact hu.2.2

/-- C116 for the forest with positive lifetime and area limit and an objective without NaN: the best tree is always a new one, and in the next forest there is
a tree that is at least as good as what the objective says about the best one now. -/
theorem C116_trees (p : Par) (hl : 0 < p.lifetime) (ha : 0 < p.areaLimit) (hn : NoNaN env) {ncb : ℕ} {hist : List ((alg B N p).σ × Vec D × Fl)} {w : World (Vec D)}
    (ht : (alg B N p).Trace env ncb hist w) : (∀ r ∈ hist, Fresh (D := D) r.1) ∧ hist.IsChain fun r' r => Heirs (D := D) env r'.1 r.1 := by
  refine ht.post (P := fun r => Fresh (D := D) r.1) (R := fun r' r => Heirs (D := D) env r'.1 r.1) (fun s b hs hb => ?_) fun r _ => ?_
  · obtain ⟨w, w', hs⟩ := hs
    have hpost : Post env (init B N) fun s => s ≠ [] ∧ ∀ t ∈ s, t.age = 0 ∧ Possible env t.x t.f := by
      refine .bind' (P := fun a : (Fin N → Vec D) × (Fin N → Fl) => N ≠ 0 ∧ ∀ i, Possible env (a.1 i) (a.2 i)) (.bind' .any fun pop _ => LOA.Post.ite (fun _ => LOA.Post.throw) fun h0 =>
        .bind' (Post.tabM (P := fun i v => Possible env (pop i) v) fun i => .eval fun _ h => h) fun f hf => .pure' ⟨h0, hf⟩) fun a ⟨h0, ha⟩ => .pure' ⟨?_, fun t ht => ?_⟩
      · intro h
        have := congrArg List.length h
        simp at this
        exact h0 this
      · obtain ⟨i, rfl⟩ := List.mem_ofFn.1 ht
        exact ⟨rfl, ha i⟩
    obtain ⟨h1, h2⟩ := hpost _ _ _ hs
    obtain ⟨k, m, -, hm, hmin, -⟩ := argmin_spec (List.map (fun t : Tree D => t.f) s) (fun h => h1 (List.map_eq_nil_iff.1 h)) fun v hv => by
      obtain ⟨t, ht, rfl⟩ := List.mem_map.1 hv
      exact SHADE.possible_ne_nan hn _ _ (h2 t ht).2
    obtain ⟨t, ht, rfl⟩ := List.mem_map.1 (List.mem_of_getElem? hm)
    exact ⟨t, ht, (h2 t ht).1, fun u hu => hmin _ (List.mem_map_of_mem hu)⟩
  · refine .bind' .any fun seeds _ => .bind' (evalTrees_post _) fun ev hev => .bind' (.yields Yields.sortRecs) fun l hs => .bind' (globalPhase_post p _ _ fun t ht => ?_) fun pop hpop =>
      .bind' (P := fun _ => pop ≠ []) ?_ fun best hne => .pure' ⟨?_, fun t ht h0 => ?_⟩
    · obtain ⟨u, -, hu⟩ := forall₂_right hev (hs.1.mem_iff.1 (List.mem_of_mem_take ht))
      exact hu.2.2
    · exact (Post.yields (Yields.mk (P := fun a => a ∈ pop) fun g => wp_argminRec fun a h1 h2 => ⟨h1, rfl⟩)).mono fun a h => List.ne_nil_of_mem h
    · exact freshen_fresh hne fun t ht => SHADE.possible_ne_nan hn _ _ (hpop.2 t ht)
    · obtain ⟨e, he, h1⟩ := forall₂_left hev (a := (t.x, t.age + 1)) (List.mem_append_left _ (List.mem_filter.2 ⟨List.mem_map.2 ⟨t, ht, rfl⟩, by simp [h0]; omega⟩))
      obtain ⟨e', he', hle⟩ := keeps_take hs.1 hs.2 ha he
      obtain ⟨t', ht', hx, hf⟩ := freshen_has (hpop.1 e' he')
      have hp : Possible env t.x e.f := by have := h1.2.2; rwa [h1.1] at this
      refine ⟨t', ht', e.f, hp, ?_⟩
      rw [hf]
      exact hle.resolve_left (SHADE.possible_ne_nan hn _ _ hp)

end FOA

/-! ### Fireworks that are evaluated again -/

namespace FWA

theorem evalRecs_post (l : List (Vec D)) : Post env (evalRecs l) fun r => List.Forall₂ (fun x e => e.1 = x ∧ Possible env e.1 e.2) l r :=
  LOA.Post.ite (fun _ => LOA.Post.throw) fun _ => FOA.mapM_post fun _ => .bind' (.eval fun _ h => h) fun _ h => .pure' ⟨rfl, h⟩

theorem explosions_keep (ex : Fin N → Vec D → Prog (Vec D) (Vec D)) (n : Fin N → ℤ) (pop : Fin N → Vec D) : Post env (explosions ex n pop) fun l => ∀ i, pop i ∈ l :=
  LOA.Post.ite (fun _ => LOA.Post.throw) fun _ => .bind' .any fun _ _ => .pure' fun i => List.mem_append_left _ (List.mem_ofFn.2 ⟨i, rfl⟩)

theorem addGauss_keep (ga : Vec D → Prog (Vec D) (Vec D)) (m : ℕ) (l : List (Vec D)) : Post env (addGauss ga m l) fun r => ∀ x ∈ l, x ∈ r :=
  .bind' .any fun _ _ => .bind' .any fun _ _ => .pure' fun _ hx => List.mem_append_left _ hx

/-- `e` is one of the evaluated points, none of which is better. -/
def Best (r : List (Vec D × Fl)) (e : Vec D × Fl) : Prop := e ∈ r ∧ ∀ a ∈ r, e.2 ≤ a.2

theorem argmin_post {α : Type} {val : α → Fl} {l : List α} (h : ∀ a ∈ l, val a ≠ .nan) : Post env (argminRec val l : Prog (Vec D) α) fun a => a ∈ l ∧ ∀ e ∈ l, val a ≤ val e :=
  Post.yields (Yields.mk fun g => wp_argminRec fun a h1 h2 => ⟨⟨h1, h2 h⟩, rfl⟩)

theorem splitBest_post (r : List (Vec D × Fl)) (h : ∀ e ∈ r, e.2 ≠ .nan) : Post env (splitBest r) fun a => Best r a.1 :=
  .bind' (argmin_post fun i _ => h _ (List.get_mem r i)) fun i hi => .pure' ⟨List.get_mem r i, fun a ha => by
    obtain ⟨k, rfl⟩ := List.get_of_mem ha
    exact hi.2 k (List.mem_finRange k)⟩

/-- Every old firework is matched by the first new one: what the objective says about it is not better. -/
def Matched (env : Env (Vec D)) (hN : 0 < N) (fit' : Fin N → Fl) (pop : Fin N → Vec D) : Prop := ∀ i, ∃ v, Possible env (pop i) v ∧ fit' ⟨0, hN⟩ ≤ v

theorem best_matched {hN : 0 < N} {pop : Fin N → Vec D} {l : List (Vec D)} (hl : ∀ i, pop i ∈ l) {r : List (Vec D × Fl)}
    (hr : List.Forall₂ (fun x e => e.1 = x ∧ Possible env e.1 e.2) l r) {b : Vec D × Fl} (hb : Best r b) {fit' : Fin N → Fl} (h0 : fit' ⟨0, hN⟩ = b.2) : Matched env hN fit' pop := fun i => by
  obtain ⟨e, he, hx, hp⟩ := FOA.forall₂_left hr (hl i)
  exact ⟨e.2, hx ▸ hp, h0 ▸ hb.2 e he⟩

/-- C116 for the fireworks algorithm, with an objective without NaN: the first firework is at least as good as what the objective says about the old ones. -/
theorem C116_fireworks (hN : 0 < N) (p : Par) (hn : NoNaN env) {ncb : ℕ} {hist : List ((alg B N p).σ × Vec D × Fl)} {w : World (Vec D)} (ht : (alg B N p).Trace env ncb hist w) :
    hist.IsChain fun r' r => Matched env hN (St.fit (D := D) (N := N) r'.1) (St.pop (D := D) (N := N) r.1) := by
  refine ht.link fun s => .bind' .any fun _ _ => .bind' .any fun _ _ => .bind' (explosions_keep _ _ _) fun l hl => .bind' (addGauss_keep _ _ l) fun l' hl' => ?_
  refine .bind' (evalRecs_post l') fun r hr => .bind' (splitBest_post r fun e he => ?_) fun b hb => .bind' .any fun _ _ => .pure' ?_
  · obtain ⟨x, -, h⟩ := FOA.forall₂_right hr he
    exact SHADE.possible_ne_nan hn _ _ h.2
  · exact best_matched (fun i => hl' _ (hl i)) hr hb rfl

/-- C116 for the dynamic fireworks algorithms, likewise. -/
theorem C116_dynamic (hN : 0 < N) (p : Par) (gauss : Bool) (up down : Fl) (hn : NoNaN env) {ncb : ℕ} {hist : List ((algD B N p gauss up down).σ × Vec D × Fl)} {w : World (Vec D)}
    (ht : (algD B N p gauss up down).Trace env ncb hist w) :
    hist.IsChain fun r' r => Matched env hN (DynSt.fit (D := D) (N := N) r'.1) (DynSt.pop (D := D) (N := N) r.1) := by
  have hg : ∀ (m : Option ℕ) xb (l : List (Vec D)), Post env (someGauss B m xb l) fun r => ∀ x ∈ l, x ∈ r := fun m xb l => by
    cases m with
    | none => exact .pure' fun _ h => h
    | some m => exact addGauss_keep _ m l
  refine ht.link fun s => .bind' .any fun _ _ => .bind' .any fun _ _ => .bind' .any fun _ _ => .bind' (explosions_keep _ _ _) fun l hl => .bind' (hg _ _ l) fun l' hl' => .bind' .any fun _ _ => ?_
  refine .bind' (P := fun a => Matched env hN (fun i => (a.2 i).2) (DynSt.pop (D := D) (N := N) s.1)) ?_ fun a ha => .bind' .any fun _ _ => .bind' .any fun _ _ => .pure' ha
  refine .bind' (evalRecs_post l') fun r hr => .bind' (argmin_post fun e he => ?_) fun b hb => .bind' .any fun _ _ => .pure' ?_
  · obtain ⟨x, -, h⟩ := FOA.forall₂_right hr he
    exact SHADE.possible_ne_nan hn _ _ h.2
  · exact best_matched (fun i => hl' _ (hl i)) hr hb rfl

end FWA

/-! ### Corals -/

namespace CRO

theorem settling_keeps (p : Par) (reef new : List (Vec D × Fl)) (xb : Vec D) (fxb : Fl) : Post env (settling p reef new xb fxb) fun a => reef <+: a.1 :=
  .bind' .any fun _ _ => .pure' (List.prefix_append _ _)

/-- C116 for coral reefs: between two depredations corals stay, with their fitness. -/
theorem C116_corals (p : Par) {ncb : ℕ} {hist : List ((alg B N p).σ × Vec D × Fl)} {w : World (Vec D)} (ht : (alg B N p).Trace env ncb hist w) :
    hist.IsChain fun r' r => St.flat (D := D) r'.1 = false → St.reef (D := D) r.1 <+: St.reef (D := D) r'.1 := by
  refine ht.link fun s => LOA.Post.ite (fun _ => LOA.Post.throw) fun _ => .bind' .any fun _ _ => .bind' .any fun _ _ => .bind' .any fun _ _ => .bind' .any fun _ _ => .bind' .any fun _ _ =>
    .bind' .any fun _ _ => .bind' (settling_keeps p _ _ _ _) fun a ha => .bind' (P := fun a' => a.1 <+: a'.1) (.bind' .any fun _ _ => .bind' .any fun _ _ => .bind' .any fun _ _ => settling_keeps p _ _ _ _)
      fun a' ha' => .bind' (P := fun s' : St D => s'.flat = false → s'.reef = a'.1) (.bind' .any fun v _ => LOA.Post.ite (fun _ => LOA.Post.throw) fun _ => LOA.Post.ite (fun _ =>
        .bind' .any fun _ _ => .pure' nofun) fun _ => .pure' fun _ => rfl) fun s' hs' => .pure' fun hf => (hs' hf) ▸ ha.trans ha'

end CRO

/-! ### What is not elitist -/

/-- The first iteration loses the best value of the initial population. -/
def Loses {X : Type} (A : Alg X) (env : Env X) : Prop := ∃ w w1 w2 s xb fxb r, A.init.run env w = (.ok s, w1) ∧ getBest (A.pop s) (A.fit s) none .pinf = .ok (xb, fxb) ∧
  (A.iter s xb fxb).run env w1 = (.ok r, w2) ∧ ∃ v ∈ A.fit s, ∀ v' ∈ A.fit r.1, v < v'

omit [Arith] in
theorem loses {X : Type} {A : Alg X} {env : Env X} {w : World X} (h : (match A.init.run env w with
    | (.ok s, w1) => (match getBest (A.pop s) (A.fit s) none .pinf with
      | .ok b => (match (A.iter s b.1 b.2).run env w1 with
        | (.ok r, _) => (A.fit s).any fun v => (A.fit r.1).all fun v' => decide (v < v')
        | _ => false)
      | _ => false)
    | _ => false) = true) : Loses A env := by
  split at h
  · rename_i s w1 h1
    split at h
    · rename_i b hb
      split at h
      · rename_i r w2 h2
        obtain ⟨v, hv, h3⟩ := List.any_eq_true.1 h
        exact ⟨w, w1, w2, s, b.1, b.2, r, h1, hb, h2, v, hv, fun v' hv' => of_decide_eq_true (List.all_eq_true.1 h3 v' hv')⟩
      · cases h
    · cases h
  · cases h

omit [Arith] in
/-- **C116 fails** for the genetic algorithm: all individuals are replaced, and the best one is lost. -/
theorem GA.C116_ga_false : Loses (@GA.alg NiaPy.Ex.arith 1 .minimization (Ex.box 1) 3 ⟨.tournament 2, .uniform (lit 1 2), .uniform (lit 1 2)⟩ 50) (Ex.env2 5) :=
  loses (w := World.init .minimization) (by decide +kernel)

omit [Arith] in
/-- **C116 fails** for the forest with a lifetime of 0: the best tree dies at once. -/
theorem FOA.C116_lifetime_false : Loses (@FOA.alg NiaPy.Ex.arith 1 (Ex.box 1) 2 ⟨0, 2, 1, 1, .fin (1 / 2)⟩) (Ex.env2 5) :=
  loses (w := World.init .minimization) (by decide +kernel)

omit [Arith] in
/-- Elitist runs with iterations. -/
example : (@ES.algL Ex.arith 1 .minimization (Ex.box 1) ⟨2, 2, .fin 2, .fin (1 / 2), .fin (1 / 10)⟩ 3).okIters Ex.env2 1 5 = some 2 := by decide +kernel

end NiaPy
