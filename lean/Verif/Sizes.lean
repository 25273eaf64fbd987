import Verif.Summary
import Verif.Post
import Verif.Algo.RS
import Verif.Algo.DynFWA
import Verif.Algo.HDE
import Verif.Algo.SHADEProps
import Verif.Algo.LOAShape

/-!
# The population keeps its size (C103)

At the head of every iteration (and so in everything the callbacks are shown) the population has as many members as was asked for. Bacterial foraging is the
exception among the algorithms that are not meant to change it: its reproduction keeps `2 * (N // 2)` bacteria.
-/

namespace NiaPy
variable {X α β : Type}

/-- In every run with `env`, the population at the head of every iteration has `n` members, each with its fitness. -/
def KeepsSize (A : Alg X) (env : Env X) (n : ℕ) : Prop :=
  ∀ (ncb : ℕ) (hist : List (A.σ × X × Fl)) (w : World X), A.Trace env ncb hist w → ∀ r ∈ hist, (A.pop r.1).length = n ∧ (A.fit r.1).length = n

theorem KeepsSize.of_len {A : Alg X} {env : Env X} {n : ℕ} (h : ∀ s, (A.pop s).length = n ∧ (A.fit s).length = n) : KeepsSize A env n :=
  fun _ _ _ _ _ _ => h _

theorem Alg.Trace.always {A : Alg X} {env : Env X} {ncb : ℕ} {hist : List (A.σ × X × Fl)} {w : World X} (ht : A.Trace env ncb hist w)
    {P : A.σ → Prop} (h0 : Post env A.init P) (h : ∀ s xb fxb, P s → Post env (A.iter s xb fxb) fun r => P r.1) : ∀ r ∈ hist, P r.1 := by
  intro r hr
  obtain ⟨pre, rest, he⟩ := List.append_of_mem hr
  exact ht.after (P := fun _ => P) h0 (fun _ => h) he

theorem KeepsSize.of_post {A : Alg X} {env : Env X} {n : ℕ} (P : A.σ → Prop) (h0 : Post env A.init P)
    (h : ∀ s xb fxb, P s → Post env (A.iter s xb fxb) fun r => P r.1) (hP : ∀ s, P s → (A.pop s).length = n ∧ (A.fit s).length = n) :
    KeepsSize A env n := fun _ _ _ ht r hr => hP _ (ht.always h0 h r hr)

theorem not_keepsSize {A : Alg X} {env : Env X} {n ncb fuel : ℕ}
    (h : (match A.execBody env ncb fuel with | (.ok r, _) => decide ((A.pop r.1).length ≠ n) | _ => false) = true) : ¬ KeepsSize A env n := by
  intro hk
  split at h
  · rename_i r w he
    obtain ⟨hist, w', ht, -⟩ := body_trace (A := A) (env := env) (ncb := ncb) (fuel := fuel) (r := r) (by rw [he])
    exact of_decide_eq_true h (hk _ _ _ ht r (by simp)).1
  · cases h

theorem Post.mapMLen {env : Env X} {l : List β} {f : β → Prog X α} : Post env (mapM' l f) fun r => r.length = l.length := by
  induction l with
  | nil => exact .pure' rfl
  | cons b bs ih => exact .bind .any fun a _ => .bind ih fun r hr => .pure' (by simp [hr])

theorem Post.sortRecsLen {env : Env X} {val : α → Fl} {l : List α} : Post env (sortRecs val l) fun r => r.length = l.length :=
  (Post.yields Yields.sortRecs).mono fun _ h => h.1.length_eq

/-- The evaluations counted at the head of an iteration. -/
theorem VerifiedIf.trace_evals {H : Ctx X → Prop} {A : Alg X} {Good : X → Prop} {s t : Bool} {K : Cost} {al : Prop} (hA : VerifiedIf H A Good s t K al)
    (env : Env X) {P : X → Prop} {sh : Prop} (hH : MetBy H env False P sh) {ncb : ℕ} {hist : List (A.σ × X × Fl)} {w : World X} (h : A.Trace env ncb hist w)
    {m : ℕ} (hK : K.hi = some m) (hG : ∀ x, Good x → P x := by intros; trivial)
    (hR : ∀ rng k x, P (env.repairFn rng k x) := by intros; trivial) : w.st.evals ≤ K.init + w.st.iters * m := by
  obtain ⟨Inv, hok⟩ := hA
  have hC := hok (env.ctx False P sh) (hH _ (fun _ _ h => h) id rfl (fun _ _ h => h) fun hs => Held.other hs) hG (fun _ => trivial) (fun _ => trivial)
  suffices hs : ∀ hist w, A.Trace env ncb hist w → w.st.evals ≤ K.init + w.st.iters * m ∧
      ∃ r hist', hist = r :: hist' ∧ Inv (env.ctx False P sh) r.1 (env.opt.mul w.st.xf) ∧ Held sh P (Possible env) r.2.1 r.2.2 from
    (hs _ _ h).1
  intro hist w h
  induction h with
  | start h =>
    obtain ⟨w1, h1, h2, h3, h4, h5⟩ := start_init h
    have hw1 : CallsOK env w1 := by simp [CallsOK, h3]
    have hb : env.opt.mul w1.st.xf = .pinf := by rw [h2]; simp [TaskSt.init]
    have := wp_sound (env.ctx False P sh) env (.of hR fun _ _ h => h) (Or.inl trivial) _ _ ⟨env.opt.mul w1.st.xf, 0, w1.events⟩ w1 (hC.init _ hb)
      (fun x v hg hf => .of hg ((hw1.run _).possible hf)) rfl rfl
    rw [h1] at this
    obtain ⟨g', ht, hq, -⟩ := this
    have hle := ht.count_le
    obtain ⟨hi, hal, -, hk⟩ := hq _ rfl
    rw [ht.best rfl] at hi
    have hz : w1.st.evals = 0 := by rw [h2]; rfl
    simp only at hle hk
    refine ⟨by omega, _, [], rfl, hi, ?_⟩
    exact getBest_aligned (hal.imp fun _ _ h => h.1) (fun x hx => by cases hx) h4
  | round hprev hs h ih =>
    obtain ⟨w1, w2, h1, h2, h3, h4, h5, h6, h7⟩ := round_iter h
    have hw1 : CallsOK env w1 := by have := hprev.calls; unfold CallsOK at this ⊢; rwa [h3]
    obtain ⟨e1, r0, hist', he, hi, hf⟩ := ih
    cases he
    rw [← h2] at hi
    have := wp_sound (env.ctx False P sh) env (.of hR fun _ _ h => h) (Or.inl trivial) _ _ ⟨env.opt.mul w1.st.xf, 0, w1.events⟩ w1
      (hC.iter _ _ _ _ hi hf fun hn => hn.trk.elim) (fun x v hg hf => .of hg ((hw1.run _).possible hf)) rfl rfl
    rw [h1] at this
    obtain ⟨g', ht, hq, -⟩ := this
    have hit := ht.iters.resolve_left id
    have hle := ht.count_le
    obtain ⟨hi', hf', -, hk⟩ := hq _ rfl
    have hk := hk.2 m hK
    rw [ht.best rfl] at hi'
    simp only at hit hle hi' hk
    have hit4 : (nextIter w2.st).iters = w2.st.iters + 1 := rfl
    have hev4 : (nextIter w2.st).evals = w2.st.evals := rfl
    rw [h4, hit4, hev4, hit, h2, Nat.add_mul]
    rw [h2] at hle
    refine ⟨by omega, _, _, rfl, ?_, hf'⟩
    simpa [nextIter] using hi'

variable [Arith] {D : ℕ}

/-! ### Lists of individuals -/

namespace DE
variable {E : Type} {env : Env (Vec D)}

omit [Arith] in
theorem size_init {opt : OptType} {B : Box D} {N : ℕ} {ext : E} : Post env (init opt B N ext) fun l => l.length = N :=
  .bind' .any fun _ _ => .pure' (by simp)

omit [Arith] in
theorem size_select {l : List (Ind D E)} {new : Fin l.length → Ind D E} {xb : Vec D} {fxb : Fl} :
    Post env (select l new xb fxb) fun r => r.1.length = l.length :=
  .bind' .any fun _ _ => .pure' (by simp [survivors])

omit [Arith] in
theorem size {opt : OptType} {B : Box D} {N : ℕ} {ext : E} {ev : Evolve D E} : KeepsSize (mk opt B N ext (iter ev select pure)) env N := by
  refine .of_post (fun l : List (Ind D E) => l.length = N) size_init (fun (l : List (Ind D E)) xb fxb (h : l.length = N) => ?_) fun s hs => ?_
  · refine Post.bind' .any fun new _ => .bind' (size_select (l := l)) fun r hr => ?_
    exact .bind' (P := fun l' => l'.length = N) (.pure' (hr.trans h)) fun l' hl => .bind' .any fun _ _ => .pure' hl
  · have hs : List.length (α := Ind D E) s = N := hs
    exact ⟨(List.length_map _).trans hs, (List.length_map _).trans hs⟩
end DE

namespace HDE
variable {env : Env (Vec D)}

theorem size_turns {B : Box D} {p : MTS.Par} (l : List (Ind D)) (xb : Vec D) (fxb : Fl) : Post env (turns B p l xb fxb) fun r => r.1.length = l.length := by
  induction l generalizing xb fxb with
  | nil => exact .pure' rfl
  | cons e l ih => exact .bind' .any fun a _ => .bind' (ih _ _) fun r hr => .pure' (by simp [hr])

theorem size {opt : OptType} {B : Box D} {N : ℕ} {p : MTS.Par} {ev : DE.Evolve D (Mark D)} : KeepsSize (mk opt B N p ev pure) env N := by
  refine .of_post (fun l : List (Ind D) => l.length = N) DE.size_init (fun (l : List (Ind D)) xb fxb (h : l.length = N) => ?_) fun s hs => ?_
  · refine Post.bind' .any fun new _ => .bind' (DE.size_select (l := l)) fun r hr => ?_
    refine .bind' (P := fun l' => l'.length = N) (.pure' (hr.trans h)) fun l' hl => .bind' (size_turns _ _ _) fun r' hr' => ?_
    exact .bind' (.yields Yields.enable) fun l2 hl2 => .bind' .any fun _ _ => .pure' (hl2.1.trans (hr'.trans hl))
  · have hs : List.length (α := Ind D) s = N := hs
    exact ⟨(List.length_map _).trans hs, (List.length_map _).trans hs⟩
end HDE

namespace CLONALG
variable {env : Env (Vec D)} {b : ℕ}

theorem size_evaluate {B : Box D} {l : List (Bits D b)} : Post env (evaluate B l) fun r => r.length = l.length := by
  refine .bind' (P := fun r => r.length = l.length) ?_ fun r hr => .pure' (by simpa using hr)
  unfold evalKeep
  split
  · exact fun _ _ _ h => by cases h
  · exact .mapMLen

omit [Arith] in
theorem size_select {N : ℕ} {l : List (Ab D b)} (h : N ≤ l.length) : Post env (select N l) fun r => r.length = N :=
  .bind' .sortRecsLen fun r hr => .pure' (by simp [hr, h])

theorem size {B : Box D} {N : ℕ} {p : Par} : KeepsSize (alg B b N p) env N := by
  refine .of_post (fun l : List (Ab D b) => l.length = N) ?_ (fun (l : List (Ab D b)) xb fxb (h : l.length = N) => ?_) fun s hs => ?_
  · refine Post.bind' (P := fun r => r.length = N) ?_ fun r hr => size_evaluate.mono fun _ h => h.trans hr
    exact Post.mapMLen.mono fun _ h => by simpa using h
  · refine Post.bind' (P := fun l : List (Ab D b) => l.length = N) ?_ fun l1 h1 => .bind' .any fun _ _ => .bind' (P := fun l : List (Ab D b) => l.length = N) ?_ fun l2 h2 =>
      .bind' .any fun _ _ => .pure' h2
    · exact .bind' .any fun _ _ => .bind' .any fun _ _ => size_select (by simp [h])
    · unfold randomInsertion
      split
      · exact .pure' h1
      · exact .bind' .any fun _ _ => .bind' .any fun _ _ => size_select (by simp [h1])
  · have hs : List.length (α := Ab D b) s = N := hs
    exact ⟨(List.length_map _).trans hs, (List.length_map _).trans hs⟩
end CLONALG

namespace ES
variable {env : Env (Vec D)}

omit [Arith] in
theorem size_initL {opt : OptType} {B : Box D} {mu : ℕ} : Post env (initL opt B mu) fun s => s.pop.length = mu :=
  .bind' .any fun _ _ => .pure' (by simp)

theorem adaptL_length {p : Par} {iters : ℕ} {s : StL D} : (adaptL p iters s).pop.length = s.pop.length := by
  unfold adaptL updateRhos
  split
  · dsimp only
    split
    · simp
    · split <;> simp
  · rfl

theorem size_iterL {p : Par} {lam : ℕ} {s : StL D} {xb : Vec D} {fxb : Fl} (h : s.pop.length = p.mu) :
    Post env (iterL p lam s xb fxb) fun r => r.1.pop.length = p.mu := by
  refine .bind' .any fun v _ => ?_
  by_cases hk : p.k = 0
  · rw [if_pos hk]; exact fun _ _ _ h => by cases h
  · rw [if_neg hk]
    refine .bind' .any fun cn _ => .bind' .sortRecsLen fun r hr => .bind' .any fun b _ => .pure' ?_
    simp only [List.length_append, List.length_map] at hr
    simp [hr, adaptL_length, h]

theorem sizeL {opt : OptType} {B : Box D} {p : Par} {lam : ℕ} : KeepsSize (algL opt B p lam) env p.mu := by
  refine .of_post (fun s : StL D => s.pop.length = p.mu) size_initL (fun (s : StL D) xb fxb (h : s.pop.length = p.mu) => size_iterL h) fun s hs => ?_
  have hs : (StL.pop (D := D) s).length = p.mu := hs
  exact ⟨(List.length_map _).trans hs, (List.length_map _).trans hs⟩

omit [Arith] in
theorem sum_blocks (mu lam m : ℕ) (hm : (m - 1) * lam ≤ mu) :
    ((List.range m).map fun i => if lam ≤ mu - i * lam then lam else mu - i * lam).sum = min mu (m * lam) := by
  induction m with
  | zero => simp
  | succ m ih =>
    rw [List.range_succ, List.map_append, List.sum_append, ih (by
      refine le_trans (Nat.mul_le_mul_right _ ?_) hm
      omega)]
    simp only [List.map_cons, List.map_nil, List.sum_cons, List.sum_nil, Nat.add_zero]
    simp only [Nat.add_sub_cancel] at hm
    rw [Nat.add_mul, Nat.one_mul]
    split <;> omega

omit [Arith] in
theorem size_newPop {mu lam : ℕ} {l : List (Ind D)} (h : l.length = lam) : Post env (newPop mu lam l) fun r => r.length = mu := by
  refine .bind' .sortRecsLen fun r hr => ?_
  split
  · exact .pure' (by simp only [List.length_take]; omega)
  · split
    · exact fun _ _ _ h => by cases h
    · rename_i h1 h2
      refine .pure' ?_
      have h3 : (mu + lam - 1) / lam * lam ≤ mu + lam - 1 := Nat.div_mul_le_self _ _
      have h4 : mu + lam - 1 < ((mu + lam - 1) / lam + 1) * lam := by
        have := Nat.lt_div_mul_add (a := mu + lam - 1) (Nat.pos_of_ne_zero h2)
        rw [Nat.add_mul, Nat.one_mul]; exact this
      rw [Nat.add_mul, Nat.one_mul] at h4
      have h5 := sum_blocks mu lam ((mu + lam - 1) / lam) (by rw [Nat.sub_mul, Nat.one_mul]; omega)
      rw [List.length_flatMap]
      have : ((List.range ((mu + lam - 1) / lam)).map fun i => (l.take (if lam ≤ mu - i * lam then lam else mu - i * lam)).length) =
          (List.range ((mu + lam - 1) / lam)).map fun i => if lam ≤ mu - i * lam then lam else mu - i * lam := by
        refine List.map_congr_left fun i _ => ?_
        rw [List.length_take, h]
        split <;> omega
      rw [this, h5]
      omega

theorem sizeM {opt : OptType} {B : Box D} {mu lam : ℕ} : KeepsSize (algM opt B mu lam) env mu := by
  refine .of_post (fun l : List (Ind D) => l.length = mu) (.bind' size_initL fun s hs => .pure' hs) (fun (l : List (Ind D)) xb fxb _ => ?_) fun s hs => ?_
  · refine Post.bind' Post.mapMLen fun cn hcn => .bind' (size_newPop (by simpa using hcn)) fun r hr => .bind' .any fun _ _ => .pure' hr
  · have hs : List.length (α := Ind D) s = mu := hs
    exact ⟨(List.length_map _).trans hs, (List.length_map _).trans hs⟩
end ES

namespace BFO
variable {env : Env (Vec D)}

theorem size_swimStep {p : Par} {dir : Vec D} {i : ℕ} {s : Loc D} : Post env (swimStep p dir i s) fun r => r.1.cells.length = s.cells.length := by
  unfold swimStep
  split
  · exact fun _ _ _ h => by cases h
  · exact .bind' .any fun _ _ => .bind' .any fun _ _ => .pure' (by simp)

theorem size_swim {p : Par} {dir : Vec D} {i : ℕ} {j : Fl} (n : ℕ) (s : Loc D) : Post env (swim p dir i j n s) fun r => r.cells.length = s.cells.length := by
  induction n generalizing s with
  | zero => exact .bind' size_swimStep fun r hr => .pure' hr
  | succ n ih =>
    refine .bind' size_swimStep fun r hr => ?_
    rcases r with ⟨r, c⟩
    show Post env (if j ≤ c then _ else _) _
    split
    · exact .pure' hr
    · exact (ih r).mono fun _ h => h.trans hr

theorem size_chemotaxis {p : Par} {i : ℕ} {s : Loc D} : Post env (chemotaxis p i s) fun r => r.cells.length = s.cells.length := by
  unfold chemotaxis
  split
  · exact fun _ _ _ h => by cases h
  · exact .bind' .any fun _ _ => (size_swim _ _).mono fun _ h => by simpa using h

theorem size_eliminate {B : Box D} {p : Par} {i : ℕ} {s : Loc D} : Post env (eliminate B p i s) fun r => r.cells.length = s.cells.length := by
  refine .bind' .any fun r _ => ?_
  split
  · split
    · exact fun _ _ _ h => by cases h
    · exact .bind' .any fun _ _ => .bind' .any fun _ _ => .pure' (by simp)
  · exact .pure' rfl

omit [Arith] in
theorem size_reproduce {N : ℕ} {l : List (Cell D)} : Post env (reproduce N l) fun r => r.length = 2 * min (N / 2) l.length := by
  refine .bind' (.yields Yields.argsort) fun si hsi => .pure' ?_
  have := (hsi.1.filterMap (l[·]?)).length_eq
  rw [List.length_map, filterMap_range] at this
  simp only [List.length_map, List.length_append, List.length_take, this]
  omega

/-- The number of bacteria after an iteration: that before it, or after reproduction twice the number kept. -/
theorem size_iter {B : Box D} {N : ℕ} {p : Par} {s : St D} {xb : Vec D} {fxb : Fl} : Post env (iter B N p s xb fxb) fun r =>
    r.1.cells.length = if p.nChemotactic ≤ s.k + 1 then 2 * min (N / 2) s.cells.length else s.cells.length := by
  refine .bind' (LOA.Post.forAll (fun l : Loc D => l.cells.length = s.cells.length) rfl fun i _ l hl => size_chemotaxis.mono fun _ h => h.trans hl) fun l hl => ?_
  refine .bind' (P := fun r => r.1.length = if p.nChemotactic ≤ s.k + 1 then 2 * min (N / 2) s.cells.length else s.cells.length) ?_ fun r hr => ?_
  · split
    · exact .bind' size_reproduce fun c hc => .pure' (hc.trans (by rw [hl]))
    · exact .pure' hl
  · rcases r with ⟨c, k, j⟩
    show Post env (if p.nReproduction ≤ j then _ else _) _
    split
    · exact .bind' (LOA.Post.forAll (fun l : Loc D => l.cells.length = c.length) rfl fun i _ l hl => size_eliminate.mono fun _ h => h.trans hl) fun l' hl' =>
        .pure' (hl'.trans hr)
    · exact .pure' hr

theorem iter_k {B : Box D} {N : ℕ} {p : Par} {s : St D} {xb : Vec D} {fxb : Fl} {r : St D × Vec D × Fl} {w w' : World (Vec D)}
    (h : (iter B N p s xb fxb).run env w = (.ok r, w')) : r.1.k = if p.nChemotactic ≤ s.k + 1 then 0 else s.k + 1 := by
  unfold iter at h
  obtain ⟨l, w1, -, h⟩ := run_ok h
  obtain ⟨⟨cells, k, j⟩, w2, h2, h⟩ := run_ok h
  have hk : k = if p.nChemotactic ≤ s.k + 1 then 0 else s.k + 1 := by
    split at h2
    · obtain ⟨c, w3, -, h2⟩ := run_ok h2
      cases h2
      rw [if_pos ‹_›]
    · cases h2
      rw [if_neg ‹_›]
  simp only at h
  split at h
  · obtain ⟨c, w3, -, h⟩ := run_ok h
    cases h
    exact hk
  · cases h
    exact hk

/-- **C103** for bacterial foraging: at the head of every iteration there are `N` or `2 * (N / 2)` bacteria. -/
theorem C103_bfo {B : Box D} {N : ℕ} {p : Par} {k0 j0 ncb : ℕ} {hist : List (St D × Vec D × Fl)} {w : World (Vec D)}
    (ht : (alg B N p k0 j0).Trace env ncb hist w) : ∀ r ∈ hist, r.1.cells.length = N ∨ r.1.cells.length = 2 * (N / 2) := by
  refine ht.always (P := fun s : St D => s.cells.length = N ∨ s.cells.length = 2 * (N / 2)) (.bind' .any fun _ _ => .pure' (.inl (by simp)))
    fun (s : St D) xb fxb (hs : s.cells.length = N ∨ s.cells.length = 2 * (N / 2)) => size_iter.mono fun r hr => ?_
  rw [hr]
  split
  · exact .inr (by omega)
  · exact hs

/-- **C103** for bacterial foraging: from the first reproduction on there are `2 * (N / 2)` bacteria, one less than asked for if `N` is odd. -/
theorem C103_bfo_after {B : Box D} {N : ℕ} {p : Par} {k0 j0 ncb : ℕ} {hist pre rest : List (St D × Vec D × Fl)} {r : St D × Vec D × Fl} {w : World (Vec D)}
    (ht : (alg B N p k0 j0).Trace env ncb hist w) (he : hist = pre ++ r :: rest) (hr : max 1 p.nChemotactic ≤ rest.length) : r.1.cells.length = 2 * (N / 2) := by
  have := ht.after (P := fun n (s : St D) => (s.k = k0 + n ∧ s.cells.length = N ∧ n < max 1 p.nChemotactic) ∨ s.cells.length = 2 * (N / 2))
    (.bind' .any fun _ _ => .pure' (.inl ⟨rfl, by simp, by omega⟩)) (fun n (s : St D) xb fxb hs => ?_) he
  · rcases this with h | h
    · exact absurd h.2.2 (Nat.not_lt.2 hr)
    · exact h
  · intro w w' a ha
    have k1 := iter_k ha
    have l1 := size_iter _ _ _ ha
    show (St.k (D := D) a.1 = _ ∧ List.length (α := Cell D) a.1.cells = N ∧ _) ∨ List.length (α := Cell D) a.1.cells = _
    split at k1
    · rw [if_pos ‹_›] at l1
      refine .inr (l1.trans ?_)
      rcases hs with hs | hs <;> omega
    · rw [if_neg ‹_›] at l1
      rcases hs with hs | hs
      · exact .inl ⟨by omega, by omega, by omega⟩
      · exact .inr (l1.trans hs)

theorem size {B : Box D} {N : ℕ} {p : Par} {k0 j0 : ℕ} (h : N % 2 = 0) : KeepsSize (alg B N p k0 j0) env N := by
  intro ncb hist w ht r hr
  have hl : List.length (α := Cell D) r.1.cells = N := by
    have h1 := C103_bfo ht r hr
    omega
  exact ⟨(List.length_map _).trans hl, (List.length_map _).trans hl⟩

/-- An iteration without bacteria changes nothing the task counts. -/
theorem iter_nil {B : Box D} {N : ℕ} {p : Par} {s : St D} {xb : Vec D} {fxb : Fl} {r : St D × Vec D × Fl} {w w' : World (Vec D)} (hs : s.cells = [])
    (h : (iter B N p s xb fxb).run env w = (.ok r, w')) : r.1.cells = [] ∧ w'.st = w.st := by
  have hl := size_iter _ _ _ h
  rw [hs] at hl
  refine ⟨List.length_eq_zero_iff.1 (by rw [hl]; simp), ?_⟩
  unfold iter at h
  rw [hs] at h
  obtain ⟨l, w1, h1, h⟩ := run_ok h
  cases h1
  obtain ⟨⟨cells, k, j⟩, w2, h2, h⟩ := run_ok h
  have hc : cells = [] ∧ w2.st = w.st := by
    split at h2
    · obtain ⟨c, w3, h3, h2⟩ := run_ok h2
      cases h2
      refine ⟨List.length_eq_zero_iff.1 (by rw [size_reproduce _ _ _ h3]; simp), ?_⟩
      obtain ⟨si, w4, h4, h3⟩ := run_ok h3
      cases h3
      rw [show (Prog.argsort _ : Prog (Vec D) _).run env w = _ from Prog.run_lift env (.argsort _) w] at h4
      simp only [stepOp] at h4
      cases h4
      rfl
    · cases h2; exact ⟨rfl, rfl⟩
  obtain ⟨hc, hw⟩ := hc
  subst hc
  simp only at h
  split at h
  · obtain ⟨l, w3, h3, h⟩ := run_ok h
    cases h3
    cases h
    exact hw
  · cases h
    exact hw

/-- However long it takes, a run with one bacterium makes only so many evaluations. -/
theorem few_evals {B : Box D} {p : Par} {k0 j0 ncb : ℕ} {hist : List ((alg B 1 p k0 j0).σ × Vec D × Fl)} {w : World (Vec D)}
    (ht : (alg B 1 p k0 j0).Trace env ncb hist w) : w.st.evals ≤ 1 + max 1 p.nChemotactic * (p.nSwim + 2) := by
  suffices hs : w.st.evals ≤ 1 + max 1 p.nChemotactic * (p.nSwim + 2) ∧ ∃ r hist', hist = r :: hist' ∧
      ((St.k (D := D) r.1 = k0 + w.st.iters ∧ w.st.iters < max 1 p.nChemotactic) ∨ St.cells (D := D) r.1 = []) from hs.1
  have hle : ∀ {hist w}, (alg B 1 p k0 j0).Trace env ncb hist w → w.st.iters ≤ max 1 p.nChemotactic →
      w.st.evals ≤ 1 + max 1 p.nChemotactic * (p.nSwim + 2) := fun {hist w} ht hi => by
    have h1 := (verified B 1 p k0 j0).toIf.trace_evals env (P := fun _ => True) (sh := False) (fun _ _ _ _ _ _ => trivial) ht rfl
    refine h1.trans (Nat.add_le_add_left ?_ 1)
    rw [Nat.one_mul]
    exact Nat.mul_le_mul_right _ hi
  induction ht with
  | start h =>
    have hit : ∀ {r w}, (alg B 1 p k0 j0).Trace env ncb [r] w → w.st.iters = 0 := fun ht => by
      have := ((verified B 1 p k0 j0).toIf.trace_count env (P := fun _ => True) (sh := False) (fun _ _ _ _ _ _ => trivial) ht).1
      simp only [List.length_singleton] at this
      omega
    have hz := hit (.start h)
    refine ⟨hle (.start h) (by omega), _, [], rfl, .inl ⟨?_, by omega⟩⟩
    obtain ⟨w1, h1, -⟩ := start_init h
    rw [hz]
    have : Post env (init B 1 k0 j0) fun s => s.k = k0 := .bind' .any fun _ _ => .pure' rfl
    exact this _ _ _ h1
  | @round r r' hist w w' hprev hs h ih =>
    obtain ⟨he, r0, hist', e, hc⟩ := ih
    cases e
    obtain ⟨w1, w2, h1, h2, -, h4, -⟩ := round_iter h
    have hit : w'.st.iters = w.st.iters + 1 := by
      have c1 := ((verified B 1 p k0 j0).toIf.trace_count env (P := fun _ => True) (sh := False) (fun _ _ _ _ _ _ => trivial) hprev).1
      have c2 := ((verified B 1 p k0 j0).toIf.trace_count env (P := fun _ => True) (sh := False) (fun _ _ _ _ _ _ => trivial) (.round hprev hs h)).1
      simp only [List.length_cons] at c1 c2
      omega
    rcases hc with ⟨hk, hi⟩ | hc
    · refine ⟨hle (.round hprev hs h) (by omega), _, _, rfl, ?_⟩
      have k1 := iter_k h1
      have l1 := size_iter _ _ _ h1
      split at k1
      · rw [if_pos ‹_›] at l1
        exact .inr (List.length_eq_zero_iff.1 (by rw [l1]; simp))
      · exact .inl ⟨by omega, by omega⟩
    · obtain ⟨e1, e2⟩ := iter_nil hc h1
      refine ⟨?_, _, _, rfl, .inr e1⟩
      rw [h4]
      show w2.st.evals ≤ _
      rw [e2, h2]
      exact he

/-- **C103, endless runs.** With one bacterium, a task without a limit on the iterations and a limit on the evaluations that one bacterium does not reach before its
first reproduction, a run returns only if it has reached the target: reproduction keeps half of one bacterium, that is none, and nothing is evaluated any more. -/
theorem C103_bfo_endless {B : Box D} {p : Par} {k0 j0 ncb fuel : ℕ} {main : Bool} {out : RunOut (Vec D)} {x : Vec D} {f : Fl} (hi : env.maxIters = none)
    (he : ∀ m, env.maxEvals = some m → 1 + max 1 p.nChemotactic * (p.nSwim + 2) < m)
    (hrun : ((alg B 1 p k0 j0).exec env main ncb fuel).1 = .ok out) (hres : out.result = some (x, f)) :
    env.opt.mul ((alg B 1 p k0 j0).exec env main ncb fuel).2.st.xf ≤ env.opt.mul env.cutoff := by
  rw [exec_eq] at hrun ⊢
  rcases hb : ((alg B 1 p k0 j0).execBody env ncb fuel).1 with e | r
  · rw [hb] at hrun
    simp only at hrun
    split at hrun
    · cases hrun
    · cases hrun; cases hres
  · obtain ⟨hist, w, ht, hst, ha⟩ := body_trace hb
    have f1 := fireAll_st env ncb .afterRun w
    rw [ha] at f1
    simp only at f1 ⊢
    rw [f1]
    have hev := few_evals ht
    simp only [stoppingCondition, hi, reached, Bool.or_false, Bool.or_eq_true, decide_eq_true_eq] at hst
    rcases hst with h | h
    · cases hm : env.maxEvals with
      | none => rw [hm] at h; cases h
      | some m =>
        have := he m hm
        rw [hm] at h
        simp only [decide_eq_true_eq] at h
        omega
    · exact h
end BFO

/-- The algorithms that keep the size of their population. In the models of those with `Fin N`-indexed state the size is part of the type. -/
inductive Sized (opt : OptType) (B : Box D) : Alg (Vec D) → ℕ → Prop
  | ba (N p) : Sized opt B (BA.alg B N p) N
  | abc (N limit fuel) : Sized opt B (ABC.alg opt B N limit fuel) N
  | bea (N p) : Sized opt B (BEA.alg B N p) N
  | cs (N pa) : Sized opt B (CS.alg B N pa) N
  | fpa (N p) : Sized opt B (FPA.alg B N p) N
  | fa (N p) : Sized opt B (FA.alg B N p) N
  | gsa (N p) : Sized opt B (GSA.alg B N p) N
  | gwo (N) : Sized opt B (GWO.alg B N) N
  | gso (N p) : Sized opt B (GSO.alg B N p) N
  | ga (N p fuel) : Sized opt B (GA.alg opt B N p fuel) N
  | fss (N p) : Sized opt B (FSS.alg opt B N p) N
  | es1 (p) : Sized opt B (ES.alg1 opt B p) 1
  | pso (N p u c m) : Sized opt B (PSO.alg B N p u c m) N
  | ovcpso (N p) : Sized opt B (PSO.algO B N p) N
  | clpso (N p) : Sized opt B (PSO.algC B N p) N
  | sca (N p) : Sized opt B (SCA.alg B N p) N
  | hs (N p) : Sized opt B (HS.alg B N p) N
  | mfo (N) : Sized opt B (MFO.alg B N) N
  | mke (N p v2) : Sized opt B (MKE.alg opt B N p v2) N
  | mke3 (N fc n) : Sized opt B (MKE.alg3 B N fc n) N
  | sa (p) : Sized opt B (SA.alg B p) 1
  | hc (delta fuel) : Sized opt B (HC.alg B delta fuel) 1
  | hho (N levy) : Sized opt B (HHO.alg B N levy) N
  | kh (N p) : Sized opt B (KH.alg B N p) N
  | mbo (N p) : Sized opt B (MBO.alg B N p) N
  | ca (N p) : Sized opt B (CA.alg opt B N p) N
  | cso (N p) : Sized opt B (CSO.alg B N p) N
  | bbfwa (p) : Sized opt B (FWA.bbAlg B p) 1
  | fwa (N p) : Sized opt B (FWA.alg B N p) N
  | efwa (N p a0 a1) : Sized opt B (FWA.algE B N p a0 a1) N
  | aba (N p) : Sized opt B (BAT.alg B N p) N
  | saba (N p q) : Sized opt B (BAT.algS B N p q) N
  | hsaba (N p q strat f cr) : Sized opt B (BAT.algHS B N p q strat f cr) N
  | hba (N p c f cr) : Sized opt B (BAT.algH B N p c f cr) N
  | plba (N) : Sized opt B (BAT.algP B N) N
  | nm (N p) : Sized opt B (NM.alg B N p) N
  | aso (N p fuel) : Sized opt B (ASO.alg B N p fuel) N
  | mshoa (N p) : Sized opt B (MSHOA.alg B N p) N
  | mts (N p) : Sized opt B (MTS.alg B N p) N
  | rs (fuel) : Sized opt B (RS.alg B fuel) 1
  | dynfwa (N p gauss up down) : Sized opt B (FWA.algD B N p gauss up down) N
  | de (N strat f cr) : Sized opt B (DE.alg opt B N strat f cr) N
  | deMulti (N strats f cr) : Sized opt B (DE.algMulti opt B N strats f cr) N
  | jde (N strat p) : Sized opt B (JDE.alg opt B N strat p) N
  | jdeMulti (N strats f cr) : Sized opt B (JDE.algMulti opt B N strats f cr) N
  | hde (N p strat f cr) : Sized opt B (HDE.alg opt B N p strat f cr) N
  | hdeMulti (N p strats f cr) : Sized opt B (HDE.algMulti opt B N p strats f cr) N
  | shade (p) (hp : p.lpsr = false) : Sized opt B (SHADE.alg opt B p) p.N
  | clonalg (b N p) : Sized opt B (CLONALG.alg B b N p) N
  | esL (p lam) : Sized opt B (ES.algL opt B p lam) p.mu
  | esM (mu lam) : Sized opt B (ES.algM opt B mu lam) mu
  | bfo (N p k0 j0) (h : N % 2 = 0) : Sized opt B (BFO.alg B N p k0 j0) N

/-- **C103.** In every run of these algorithms, with any task, random numbers, repair function and callbacks, the population at the head of every iteration
has the size it was created with. -/
theorem C103_size {opt : OptType} {B : Box D} {A : Alg (Vec D)} {n : ℕ} (h : Sized opt B A n) (env : Env (Vec D)) : KeepsSize A env n := by
  cases h
  case ba => exact .of_len fun _ => ⟨by simp [BA.alg], by simp [BA.alg]⟩
  case abc => exact .of_len fun _ => ⟨by simp [ABC.alg], by simp [ABC.alg]⟩
  case bea => exact .of_len fun _ => ⟨by simp [BEA.alg], by simp [BEA.alg]⟩
  case cs => exact .of_len fun _ => ⟨by simp [CS.alg], by simp [CS.alg]⟩
  case fpa => exact .of_len fun _ => ⟨by simp [FPA.alg], by simp [FPA.alg]⟩
  case fa => exact .of_len fun _ => ⟨by simp [FA.alg], by simp [FA.alg]⟩
  case gsa => exact .of_len fun _ => ⟨by simp [GSA.alg], by simp [GSA.alg]⟩
  case gwo => exact .of_len fun _ => ⟨by simp [GWO.alg], by simp [GWO.alg]⟩
  case gso => exact .of_len fun _ => ⟨by simp [GSO.alg], by simp [GSO.alg]⟩
  case ga => exact .of_len fun _ => ⟨by simp [GA.alg], by simp [GA.alg]⟩
  case fss => exact .of_len fun _ => ⟨by simp [FSS.alg], by simp [FSS.alg]⟩
  case es1 => exact .of_len fun _ => ⟨by simp [ES.alg1], by simp [ES.alg1]⟩
  case pso => exact .of_len fun _ => ⟨by simp [PSO.alg], by simp [PSO.alg]⟩
  case ovcpso => exact .of_len fun _ => ⟨by simp [PSO.algO], by simp [PSO.algO]⟩
  case clpso => exact .of_len fun _ => ⟨by simp [PSO.algC], by simp [PSO.algC]⟩
  case sca => exact .of_len fun _ => ⟨by simp [SCA.alg], by simp [SCA.alg]⟩
  case hs => exact .of_len fun _ => ⟨by simp [HS.alg], by simp [HS.alg]⟩
  case mfo => exact .of_len fun _ => ⟨by simp [MFO.alg], by simp [MFO.alg]⟩
  case mke => exact .of_len fun _ => ⟨by simp [MKE.alg], by simp [MKE.alg]⟩
  case mke3 => exact .of_len fun _ => ⟨by simp [MKE.alg3], by simp [MKE.alg3]⟩
  case sa => exact .of_len fun _ => ⟨by simp [SA.alg], by simp [SA.alg]⟩
  case hc => exact .of_len fun _ => ⟨by simp [HC.alg], by simp [HC.alg]⟩
  case hho => exact .of_len fun _ => ⟨by simp [HHO.alg], by simp [HHO.alg]⟩
  case kh => exact .of_len fun _ => ⟨by simp [KH.alg], by simp [KH.alg]⟩
  case mbo => exact .of_len fun _ => ⟨by simp [MBO.alg], by simp [MBO.alg]⟩
  case ca => exact .of_len fun _ => ⟨by simp [CA.alg], by simp [CA.alg]⟩
  case cso => exact .of_len fun _ => ⟨by simp [CSO.alg], by simp [CSO.alg]⟩
  case bbfwa => exact .of_len fun _ => ⟨by simp [FWA.bbAlg], by simp [FWA.bbAlg]⟩
  case fwa => exact .of_len fun _ => ⟨by simp [FWA.alg], by simp [FWA.alg]⟩
  case efwa => exact .of_len fun _ => ⟨by simp [FWA.algE], by simp [FWA.algE]⟩
  case aba => exact .of_len fun _ => ⟨by simp [BAT.alg], by simp [BAT.alg]⟩
  case saba => exact .of_len fun _ => ⟨by simp [BAT.algS, BAT.mkS], by simp [BAT.algS, BAT.mkS]⟩
  case hsaba => exact .of_len fun _ => ⟨by simp [BAT.algHS, BAT.mkS], by simp [BAT.algHS, BAT.mkS]⟩
  case hba => exact .of_len fun _ => ⟨by simp [BAT.algH], by simp [BAT.algH]⟩
  case plba => exact .of_len fun _ => ⟨by simp [BAT.algP], by simp [BAT.algP]⟩
  case nm => exact .of_len fun _ => ⟨by simp [NM.alg], by simp [NM.alg]⟩
  case aso => exact .of_len fun _ => ⟨by simp [ASO.alg], by simp [ASO.alg]⟩
  case mshoa => exact .of_len fun _ => ⟨by simp [MSHOA.alg], by simp [MSHOA.alg]⟩
  case mts => exact .of_len fun _ => ⟨by simp [MTS.alg], by simp [MTS.alg]⟩
  case rs => exact .of_len fun _ => ⟨by simp [RS.alg], by simp [RS.alg]⟩
  case dynfwa => exact .of_len fun _ => ⟨by simp [FWA.algD], by simp [FWA.algD]⟩
  case de => exact DE.size
  case deMulti => exact DE.size
  case jde => exact DE.size
  case jdeMulti => exact DE.size
  case hde => exact HDE.size
  case hdeMulti => exact HDE.size
  case shade p hp =>
    intro ncb hist w ht r hr
    have hl : List.length r.1.pop = p.N := ((SHADE.C35_size ht).2 r hr).2.2 hp
    exact ⟨(List.length_map _).trans hl, (List.length_map _).trans hl⟩
  case clonalg => exact CLONALG.size
  case esL => exact ES.sizeL
  case esM => exact ES.sizeM
  case bfo h => exact BFO.size h

/-! ### Populations that do not keep their size, and examples -/

/-- Reproduction in every iteration, no elimination. -/
def BFO.Ex.three : Par := ⟨1, 1, 1, .fin 0, .fin (1 / 2), false, 0, 0, 0, 0⟩

omit [Arith] in
/-- **C103 fails** for bacterial foraging with an odd population size: three bacteria become two. -/
theorem BFO.C103_bfo_false : ¬ KeepsSize (@BFO.alg Ex.arith 1 (Ex.box 1) 3 BFO.Ex.three 0 0) (Ex.env2 2) 3 :=
  not_keepsSize (ncb := 0) (fuel := 5) (by decide +kernel)

omit [Arith] in
/-- **C103 fails** for the forest optimization algorithm, whose trees seed and die. -/
theorem FOA.C103_foa_false : ¬ KeepsSize (@FOA.alg Ex.arith 2 (Ex.box 2) 3 ⟨3, 2, 1, 1, .fin (1 / 2)⟩) Ex.env2 3 :=
  not_keepsSize (ncb := 0) (fuel := 5) (by decide +kernel)

omit [Arith] in
/-- **C103 fails** for differential evolution with ageing, whose individuals are born and die. -/
theorem DE.C103_aging_false : ¬ KeepsSize (@DE.algAging Ex.arith 1 .minimization (Ex.box 1) 3 (@DE.crossRand1 Ex.arith 1) (.fin (1 / 2)) (.fin (9 / 10))
    ⟨.fin 1, .fin 12, .fin (3 / 10), .fin (3 / 10)⟩ (@DE.linear Ex.arith)) (Ex.env2 1) 3 :=
  not_keepsSize (ncb := 0) (fuel := 5) (by decide +kernel)

/-- The run with one bacterium, of which `C103_bfo_endless` speaks, indeed does not end. -/
example : (match ((@BFO.alg Ex.arith 1 (Ex.box 1) 1 BFO.Ex.three 0 0).exec (Ex.env (fun _ x => .ok (x 0)) .minimization (some 6) none none {} fun _ _ x => x) true 0 20).1 with
    | .error .outOfFuel => true | _ => false) = true := by decide +kernel

end NiaPy
