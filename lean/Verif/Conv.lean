import Verif.TaskProps
import Verif.Example

/-!
# C05: `Task.convergence_data`
-/

namespace NiaPy
variable {X α : Type}

/-- The loop of `Task.convergence_data('evals')` (task.py:198-212) over `n_evals` and `fitness_evals`: each recorded
improvement is followed by copies of its value up to the next recorded evaluation number; nothing follows the last one.
The Python loop indexes both lists by the position in `n_evals`; they always have the same length
(`nEvals_length` below). Pairs instead of two lists. -/
def convLoop : List ℕ → List Fl → List (ℕ × Fl)
  | v :: v' :: vs, f :: fs => (v, f) :: ((List.range (v' - v - 1)).map fun j => (v + j + 1, f)) ++ convLoop (v' :: vs) fs
  | [v], f :: _ => [(v, f)]
  | _, _ => []

/-- `Task.convergence_data(x_axis='evals')` (task.py:187-214). -/
def convergenceEvals (s : TaskSt) : List ℕ × List Fl :=
  let l := convLoop s.nEvals s.fitnessEvals
  (l.map (·.1), l.map (·.2))

/-- `Task.convergence_data(x_axis='iters')` (task.py:195-196). -/
def convergenceIters (s : TaskSt) : List ℕ × List Fl := (List.range s.iters, s.fitnessIters)

/-- The value of the last pair whose number is at most `e` (`d` if there is none), for a list of pairs. -/
def lastUpTo (d : Fl) (l : List (ℕ × Fl)) (e : ℕ) : Fl := l.foldl (fun acc p => if p.1 ≤ e then p.2 else acc) d

theorem lastUpTo_append (d : Fl) (l m : List (ℕ × Fl)) (e : ℕ) :
    lastUpTo d (l ++ m) e = lastUpTo (lastUpTo d l e) m e := by simp [lastUpTo]

theorem lastUpTo_cons_le (d : Fl) (n : ℕ) (f : Fl) (l : List (ℕ × Fl)) (e : ℕ) (h : n ≤ e) :
    lastUpTo d ((n, f) :: l) e = lastUpTo f l e := by simp [lastUpTo, h]

theorem lastUpTo_of_lt (d : Fl) (l : List (ℕ × Fl)) (e : ℕ) (h : ∀ p ∈ l, e < p.1) : lastUpTo d l e = d := by
  induction l with
  | nil => rfl
  | cons p l ih =>
    have h1 : ¬ p.1 ≤ e := by have := h p (by simp); omega
    simp only [lastUpTo, List.foldl_cons, h1, if_false]
    exact ih (fun q hq => h q (by simp [hq]))

theorem lastUpTo_of_ge (d : Fl) (l : List (ℕ × Fl)) (e e' : ℕ) (h : ∀ p ∈ l, p.1 ≤ e) (he : e ≤ e') :
    lastUpTo d l e = lastUpTo d l e' := by
  induction l generalizing d with
  | nil => rfl
  | cons p l ih =>
    have h1 : p.1 ≤ e := h p (by simp)
    have h2 : p.1 ≤ e' := by omega
    simp only [lastUpTo, List.foldl_cons, h1, h2, if_true]
    exact ih _ (fun q hq => h q (by simp [hq]))

/-- Shape of the result of the loop. -/
theorem convLoop_spec (ns : List ℕ) (fs : List Fl) (hlen : ns.length = fs.length) (hs : ns.Pairwise (· < ·))
    (d : Fl) (n1 nl : ℕ) (h1 : ns.head? = some n1) (h2 : ns.getLast? = some nl) :
    convLoop ns fs = (List.range' n1 (nl - n1 + 1)).map fun e => (e, lastUpTo d (ns.zip fs) e) := by
  induction ns generalizing fs d n1 with
  | nil => simp at h1
  | cons v vs ih =>
    cases fs with
    | nil => simp at hlen
    | cons f fs =>
      simp at h1; subst h1
      cases vs with
      | nil =>
        simp at h2; subst h2
        simp [convLoop, lastUpTo]
      | cons v' vs =>
        have hlt : v < v' := by simp at hs; exact hs.1.1
        have hs' : (v' :: vs).Pairwise (· < ·) := hs.of_cons
        have hlast : (v' :: vs).getLast? = some nl := by simpa [List.getLast?_cons_cons] using h2
        have hle : v' ≤ nl := by
          have hm : nl ∈ v' :: vs := List.mem_of_getLast? hlast
          rcases List.mem_cons.1 hm with h | h
          · omega
          · have := (List.pairwise_cons.1 hs').1 nl h; omega
        rw [convLoop, ih fs (by simpa using hlen) hs' f v' rfl hlast]
        have hsplit : nl - v + 1 = (v' - v) + (nl - v' + 1) := by omega
        have hmem : ∀ p ∈ (v' :: vs).zip fs, v' ≤ p.1 := by
          intro p hp
          have hm := (List.of_mem_zip hp).1
          rcases List.mem_cons.1 hm with h | h
          · omega
          · have := (List.pairwise_cons.1 hs').1 _ h; omega
        have hA : (v, f) :: ((List.range (v' - v - 1)).map fun j => (v + j + 1, f)) =
            (List.range' v (v' - v)).map fun e => (e, lastUpTo d ((v :: v' :: vs).zip (f :: fs)) e) := by
          have hr : List.range' v (v' - v) = v :: (List.range (v' - v - 1)).map fun j => v + j + 1 := by
            have : v' - v = (v' - v - 1) + 1 := by omega
            rw [this, List.range'_succ]
            congr 1
            rw [List.range'_eq_map_range]
            apply List.map_congr_left; intro a _; omega
          have hc : ∀ e, v ≤ e → e < v' → lastUpTo d ((v :: v' :: vs).zip (f :: fs)) e = f := by
            intro e h1 h2
            rw [List.zip_cons_cons, lastUpTo_cons_le _ _ _ _ _ h1]
            exact lastUpTo_of_lt _ _ _ fun p hp => by have := hmem p hp; omega
          rw [hr, List.map_cons, hc v (le_refl _) hlt, List.map_map]
          congr 1
          apply List.map_congr_left
          intro j hj
          have hj' := List.mem_range.1 hj
          simp only [Function.comp]
          rw [hc _ (by omega) (by omega)]
        have hB : ((List.range' v' (nl - v' + 1)).map fun e => (e, lastUpTo f ((v' :: vs).zip fs) e)) =
            (List.range' v' (nl - v' + 1)).map fun e => (e, lastUpTo d ((v :: v' :: vs).zip (f :: fs)) e) := by
          apply List.map_congr_left
          intro e he
          have he' := (List.mem_range'_1.1 he).1
          rw [List.zip_cons_cons (a := v), lastUpTo_cons_le _ _ _ _ _ (by omega)]
        rw [hA, hB, ← List.map_append, hsplit]
        congr 1
        have : v' = v + (v' - v) := by omega
        conv_lhs => rw [show List.range' v' (nl - v' + 1) = List.range' (v + (v' - v)) (nl - v' + 1) by rw [← this]]
        exact List.range'_append_1

/-- Invariant behind C05: numbers of improvements increase strictly, lie between 1 and the number of calls, and the
improvement record determines the best value after every prefix of the calls. -/
structure RecOK (t : OptType) (w : World X) : Prop where
  len : w.st.nEvals.length = w.st.fitnessEvals.length
  evals : w.calls.length = w.st.evals
  sorted : w.st.nEvals.Pairwise (· < ·)
  bounds : ∀ n ∈ w.st.nEvals, 1 ≤ n ∧ n ≤ w.st.evals
  best : ∀ e, e ≤ w.st.evals →
    BestOf t (values (w.calls.take e)) (t.mul (lastUpTo .pinf (w.st.nEvals.zip w.st.fitnessEvals) e))
  cur : t.mul (lastUpTo .pinf (w.st.nEvals.zip w.st.fitnessEvals) w.st.evals) = w.st.xf

theorem RecOK.init (t : OptType) : RecOK t (World.init t : World X) where
  len := rfl
  evals := rfl
  sorted := by simp [World.init, TaskSt.init]
  bounds := by simp [World.init, TaskSt.init]
  best := by
    intro e _
    simp only [World.init, TaskSt.init, List.take_nil, values_nil]
    exact bestOf_nil t
  cur := rfl

theorem RecOK.step (env : Env X) (w : World X) (o : Op X) (h : RecOK env.opt w) : RecOK env.opt (stepOp env w o).2 := by
  have hx : BestOf env.opt (values w.calls) w.st.xf := by
    have := h.best w.st.evals (le_refl _)
    rwa [h.cur, ← h.evals, List.take_length] at this
  have hbnd : ∀ p ∈ w.st.nEvals.zip w.st.fitnessEvals, p.1 ≤ w.st.evals :=
    fun p hp => (h.bounds _ (List.of_mem_zip hp).1).2
  rcases stepOp_cases env w o with ⟨hs, hc⟩ | ⟨hs, hc⟩ | ⟨x, -, hs, hc⟩
  · exact ⟨by rw [hs]; exact h.len, by rw [hs, hc]; exact h.evals, by rw [hs]; exact h.sorted,
      by rw [hs]; exact h.bounds, by rw [hs, hc]; exact h.best, by rw [hs]; exact h.cur⟩
  · exact ⟨by rw [hs]; exact h.len, by rw [hs, hc]; exact h.evals, by rw [hs]; exact h.sorted,
      by rw [hs]; exact h.bounds, by rw [hs, hc]; exact h.best, by rw [hs]; exact h.cur⟩
  · have old : ∀ (c : X × Except PyErr Fl) e, e ≤ w.st.evals → values ((w.calls ++ [c]).take e) = values (w.calls.take e) := by
      intro c e he
      rw [List.take_append_of_le_length (by rw [h.evals]; exact he)]
    rcases evalTask_cases env.toTaskCfg w.st x with ⟨_, he⟩ | ⟨_, e, _, he⟩ | ⟨_, r, _, he⟩
    · rw [he] at hs hc
      simp only [List.append_nil] at hs hc
      exact ⟨by rw [hs]; exact h.len, by rw [hs, hc]; exact h.evals, by rw [hs]; exact h.sorted,
        by rw [hs]; exact h.bounds, by rw [hs, hc]; exact h.best, by rw [hs]; exact h.cur⟩
    · rw [he] at hs hc
      have hcur : env.opt.mul (lastUpTo .pinf (w.st.nEvals.zip w.st.fitnessEvals) (w.st.evals + 1)) = w.st.xf := by
        rw [← lastUpTo_of_ge _ _ w.st.evals (w.st.evals + 1) hbnd (by omega)]; exact h.cur
      refine ⟨by rw [hs]; exact h.len, by rw [hs, hc]; simp [h.evals], by rw [hs]; exact h.sorted,
        by rw [hs]; exact fun n hn => ⟨(h.bounds n hn).1, Nat.le_succ_of_le (h.bounds n hn).2⟩, ?_,
        by rw [hs]; exact hcur⟩
      rw [hs, hc]
      intro e' he'
      simp only at he' ⊢
      rcases Nat.lt_or_eq_of_le he' with hlt | heq
      · rw [old _ _ (by omega)]; exact h.best e' (by omega)
      · rw [heq, hcur, ← h.evals, List.take_of_length_le (by simp)]
        simpa using hx
    · rw [he] at hs hc
      have hx' := bestOf_record env.opt { w.st with evals := w.st.evals + 1 } (values w.calls) r hx
      unfold record at hs hx'
      by_cases hlt : env.opt.mul r < env.opt.mul w.st.xf
      · simp only [hlt, if_true] at hs hx'
        have hz : ((w.st.nEvals ++ [w.st.evals + 1]).zip (w.st.fitnessEvals ++ [env.opt.mul r])) =
            w.st.nEvals.zip w.st.fitnessEvals ++ [(w.st.evals + 1, env.opt.mul r)] := by
          rw [List.zip_append h.len]; rfl
        have hcur : lastUpTo .pinf ((w.st.nEvals ++ [w.st.evals + 1]).zip (w.st.fitnessEvals ++ [env.opt.mul r]))
            (w.st.evals + 1) = env.opt.mul r := by
          rw [hz, lastUpTo_append]; simp [lastUpTo]
        refine ⟨by rw [hs]; simp [h.len], by rw [hs, hc]; simp [h.evals], ?_, ?_, ?_, by rw [hs, hcur]⟩
        · rw [hs]; simp only [List.pairwise_append]
          refine ⟨h.sorted, by simp, fun a ha b hb => ?_⟩
          simp at hb; have := (h.bounds a ha).2; omega
        · rw [hs]; intro n hn
          simp only [List.mem_append, List.mem_singleton] at hn
          rcases hn with hn | hn
          · exact ⟨(h.bounds n hn).1, Nat.le_succ_of_le (h.bounds n hn).2⟩
          · subst hn; simp
        · rw [hs, hc]
          intro e' he'
          simp only at he' ⊢
          rcases Nat.lt_or_eq_of_le he' with hl | heq
          · have hlow : ¬ w.st.evals + 1 ≤ e' := by omega
            rw [old _ _ (by omega), hz, lastUpTo_append]
            simp only [lastUpTo, List.foldl_cons, List.foldl_nil, hlow, if_false]
            exact h.best e' (by omega)
          · rw [heq, hcur, ← h.evals, List.take_of_length_le (by simp)]
            simpa using hx'
      · simp only [hlt, if_false] at hs hx'
        have hcur : env.opt.mul (lastUpTo .pinf (w.st.nEvals.zip w.st.fitnessEvals) (w.st.evals + 1)) = w.st.xf := by
          rw [← lastUpTo_of_ge _ _ w.st.evals (w.st.evals + 1) hbnd (by omega)]; exact h.cur
        refine ⟨by rw [hs]; exact h.len, by rw [hs, hc]; simp [h.evals], by rw [hs]; exact h.sorted,
          by rw [hs]; exact fun n hn => ⟨(h.bounds n hn).1, Nat.le_succ_of_le (h.bounds n hn).2⟩, ?_,
          by rw [hs]; exact hcur⟩
        rw [hs, hc]
        intro e' he'
        simp only at he' ⊢
        rcases Nat.lt_or_eq_of_le he' with hlt | heq
        · rw [old _ _ (by omega)]; exact h.best e' (by omega)
        · rw [heq, hcur, ← h.evals, List.take_of_length_le (by simp)]
          simpa using hx'

theorem RecOK.run (env : Env X) (p : Prog X α) : RecOK env.opt (p.run env (World.init env.opt)).2 :=
  run_invariant env _ (fun w o h => h.step env w o) p _ (RecOK.init env.opt)

/-- Call number `n` (counted from 1) returned a value strictly better than everything before it. Stated on the log
alone. -/
def Improves (t : OptType) (calls : List (X × Except PyErr Fl)) (n : ℕ) : Prop :=
  n ≠ 0 ∧ ∃ x r b, calls[n - 1]? = some (x, .ok r) ∧ BestOf t (values (calls.take (n - 1))) b ∧
    AtLeastAsGood t r b ∧ r ≠ b

theorem lt_mul_iff (t : OptType) (r b : Fl) : t.mul r < t.mul b ↔ AtLeastAsGood t r b ∧ r ≠ b := by
  cases t with
  | minimization =>
    simp only [OptType.mul, AtLeastAsGood]
    exact ⟨fun h => ⟨Fl.le_of_lt h, Fl.ne_of_lt h⟩, fun h => (Fl.lt_or_eq_of_le h.1).resolve_right h.2⟩
  | maximization =>
    simp only [OptType.mul, AtLeastAsGood, Fl.neg_lt_neg]
    exact ⟨fun h => ⟨Fl.le_of_lt h, (Fl.ne_of_lt h).symm⟩, fun h => (Fl.lt_or_eq_of_le h.1).resolve_right h.2.symm⟩

theorem improves_append (t : OptType) (calls : List (X × Except PyErr Fl)) (c : X × Except PyErr Fl) (n : ℕ)
    (hn : n ≤ calls.length) : Improves t (calls ++ [c]) n ↔ Improves t calls n := by
  unfold Improves
  by_cases h0 : n = 0
  · simp [h0]
  · rw [List.getElem?_append_left (by omega), List.take_append_of_le_length (by omega)]

theorem improves_last (t : OptType) (calls : List (X × Except PyErr Fl)) (c : X × Except PyErr Fl) (b : Fl)
    (hb : BestOf t (values calls) b) :
    Improves t (calls ++ [c]) (calls.length + 1) ↔ ∃ x r, c = (x, .ok r) ∧ t.mul r < t.mul b := by
  unfold Improves
  simp only [lt_mul_iff, Nat.add_sub_cancel, List.take_left, ne_eq, Nat.add_eq_zero_iff, one_ne_zero, and_false,
    not_false_eq_true, true_and, List.getElem?_append_right (le_refl _), Nat.sub_self, List.getElem?_cons_zero,
    Option.some.injEq]
  constructor
  · rintro ⟨x, r, b', rfl, hb', h1, h2⟩
    cases hb.unique hb'
    exact ⟨x, r, rfl, h1, h2⟩
  · rintro ⟨x, r, rfl, h1, h2⟩
    exact ⟨x, r, b, rfl, hb, h1, h2⟩

theorem improves_le (t : OptType) (calls : List (X × Except PyErr Fl)) (n : ℕ) (h : Improves t calls n) :
    n ≤ calls.length := by
  obtain ⟨h0, x, r, b, h1, -⟩ := h
  have := (List.getElem?_eq_some_iff.1 h1).1
  omega

/-- The recorded evaluation numbers are exactly those of the improving calls. -/
theorem nEvals_iff (env : Env X) (p : Prog X α) (n : ℕ) :
    n ∈ (p.run env (World.init env.opt)).2.st.nEvals ↔
      Improves env.opt (p.run env (World.init env.opt)).2.calls n := by
  have key : (p.run env (World.init env.opt)).2.calls.length = (p.run env (World.init env.opt)).2.st.evals ∧
      BestOf env.opt (values (p.run env (World.init env.opt)).2.calls) (p.run env (World.init env.opt)).2.st.xf ∧
      ∀ n, n ∈ (p.run env (World.init env.opt)).2.st.nEvals ↔
        Improves env.opt (p.run env (World.init env.opt)).2.calls n := by
    refine run_invariant env (fun w => w.calls.length = w.st.evals ∧ BestOf env.opt (values w.calls) w.st.xf ∧
      ∀ n, n ∈ w.st.nEvals ↔ Improves env.opt w.calls n) ?_ p (World.init env.opt) ?_
    · rintro w o ⟨hl, hb, h⟩
      have hb' := bestOf_run env (Prog.lift o) w hb
      rw [Prog.run_lift] at hb'
      rcases stepOp_cases env w o with ⟨hs, hc⟩ | ⟨hs, hc⟩ | ⟨x, -, hs, hc⟩
      · rw [hs, hc]; exact ⟨hl, hb, h⟩
      · rw [hs, hc]; exact ⟨hl, hb, h⟩
      · refine ⟨?_, hb', ?_⟩
        · rw [hs, hc]
          rcases evalTask_cases env.toTaskCfg w.st x with ⟨_, he⟩ | ⟨_, e, _, he⟩ | ⟨_, r, _, he⟩ <;> rw [he] <;>
            simp [hl]
        · rw [hs, hc]
          rcases evalTask_cases env.toTaskCfg w.st x with ⟨_, he⟩ | ⟨_, e, _, he⟩ | ⟨_, r, _, he⟩
          · rw [he]; simpa using h
          · rw [he]
            intro n
            simp only
            rcases Nat.lt_trichotomy n (w.calls.length + 1) with hn | hn | hn
            · rw [improves_append _ _ _ _ (by omega)]; exact h n
            · rw [hn, improves_last _ _ _ _ hb]
              constructor
              · intro hm; have := improves_le _ _ _ ((h _).1 hm); omega
              · rintro ⟨x, r, hc, -⟩; simp at hc
            · constructor
              · intro hm; have := improves_le _ _ _ ((h _).1 hm); omega
              · intro hi; have := improves_le _ _ _ hi; simp at this; omega
          · rw [he]
            intro n
            simp only
            have hrec : ∀ m, m ∈ (record env.opt { w.st with evals := w.st.evals + 1 } (env.opt.mul r)).nEvals ↔
                m ∈ w.st.nEvals ∨ (m = w.calls.length + 1 ∧ env.opt.mul r < env.opt.mul w.st.xf) := by
              intro m
              unfold record
              by_cases hlt : env.opt.mul r < env.opt.mul w.st.xf <;> simp [hlt, hl]
            rw [hrec]
            rcases Nat.lt_trichotomy n (w.calls.length + 1) with hn | hn | hn
            · rw [improves_append _ _ _ _ (by omega), h n]
              constructor
              · rintro (h | h)
                · exact h
                · omega
              · exact Or.inl
            · rw [hn, improves_last _ _ _ _ hb]
              constructor
              · rintro (hm | hm)
                · have := improves_le _ _ _ ((h _).1 hm); omega
                · exact ⟨x, r, rfl, hm.2⟩
              · rintro ⟨x', r', hc, hlt⟩
                cases hc
                exact Or.inr ⟨rfl, hlt⟩
            · constructor
              · rintro (hm | hm)
                · have := improves_le _ _ _ ((h _).1 hm); omega
                · omega
              · intro hi; have := improves_le _ _ _ hi; simp at this; omega
    · refine ⟨rfl, bestOf_nil env.opt, fun n => ?_⟩
      constructor
      · intro h; simp [World.init, TaskSt.init] at h
      · intro h; have := improves_le _ _ _ h; simp [World.init] at this
        exact absurd this h.1
  exact key.2.2 n

/-- **C05 (partial: the sign).** After any program from a fresh task the arrays returned by
`convergence_data('evals')` list consecutive evaluation numbers from the first improving call to the last improving
call (empty if there is none), and the value beside number `e` is the internal value (objective value times the
optimization type) of the best of the first `e` objective calls. What the documentation promises (the best value
itself) holds when minimizing, see `C05_evals_curve_min`, and fails when maximizing, see
`C05_evals_curve_max_false`. -/
theorem C05_evals_curve_partial (env : Env X) (p : Prog X α) (w : World X)
    (hw : (p.run env (World.init env.opt)).2 = w) :
    (((convergenceEvals w.st).1 = [] ∧ ∀ n, ¬ Improves env.opt w.calls n) ∨
      ∃ n1 nl, (convergenceEvals w.st).1 = List.range' n1 (nl - n1 + 1) ∧ n1 ≤ nl ∧
        Improves env.opt w.calls n1 ∧ Improves env.opt w.calls nl ∧
        ∀ n, Improves env.opt w.calls n → n1 ≤ n ∧ n ≤ nl) ∧
    (convergenceEvals w.st).1.length = (convergenceEvals w.st).2.length ∧
    ∀ e y, (e, y) ∈ (convergenceEvals w.st).1.zip (convergenceEvals w.st).2 →
      BestOf env.opt (values (w.calls.take e)) (env.opt.mul y) := by
  have h : RecOK env.opt w := hw ▸ RecOK.run env p
  have hi : ∀ n, n ∈ w.st.nEvals ↔ Improves env.opt w.calls n := by subst hw; exact nEvals_iff env p
  cases hh : w.st.nEvals with
  | nil =>
    have : convergenceEvals w.st = ([], []) := by simp [convergenceEvals, hh, convLoop]
    rw [this]
    refine ⟨Or.inl ⟨rfl, fun n hn => ?_⟩, rfl, by simp⟩
    have := (hi n).2 hn
    rw [hh] at this; simp at this
  | cons n1 ns =>
    have h1 : w.st.nEvals.head? = some n1 := by rw [hh]; rfl
    obtain ⟨nl, h2⟩ : ∃ nl, w.st.nEvals.getLast? = some nl := by
      rw [hh]; exact ⟨_, List.getLast?_eq_some_getLast (by simp)⟩
    have hm1 : n1 ∈ w.st.nEvals := by rw [hh]; simp
    have hml := List.mem_of_getLast? h2
    have hbl := h.bounds nl hml
    have hspec := convLoop_spec _ _ h.len h.sorted .pinf n1 nl h1 h2
    have hfirst : ∀ n ∈ w.st.nEvals, n1 ≤ n := by
      intro n hn
      have hs := h.sorted
      rw [hh] at hn hs
      rcases List.mem_cons.1 hn with h | h
      · omega
      · have := (List.pairwise_cons.1 hs).1 n h; omega
    have hlastle : ∀ n ∈ w.st.nEvals, n ≤ nl := by
      intro n hn
      obtain ⟨l, hl⟩ : ∃ l, w.st.nEvals = l ++ [nl] := by
        have := List.getLast?_eq_some_iff.1 h2
        exact this
      have hs := h.sorted
      rw [hl] at hn hs
      rcases List.mem_append.1 hn with h | h
      · have := (List.pairwise_append.1 hs).2.2 n h nl (by simp); omega
      · simp at h; omega
    refine ⟨Or.inr ⟨n1, nl, ?_, hfirst nl hml, (hi _).1 hm1, (hi _).1 hml,
      fun n hn => ⟨hfirst n ((hi n).2 hn), hlastle n ((hi n).2 hn)⟩⟩, by simp [convergenceEvals], ?_⟩
    · simp [convergenceEvals, hspec, Function.comp_def]
    · intro e y hmem
      have hz : (convergenceEvals w.st).1.zip (convergenceEvals w.st).2 = convLoop w.st.nEvals w.st.fitnessEvals := by
        have := List.zip_map' (f := fun a : ℕ × Fl => a.1) (g := fun a : ℕ × Fl => a.2)
          (l := convLoop w.st.nEvals w.st.fitnessEvals)
        simp only [convergenceEvals]
        rw [this]; simp
      rw [hz, hspec] at hmem
      simp only [List.mem_map, Prod.mk.injEq] at hmem
      obtain ⟨a, ha, rfl, rfl⟩ := hmem
      have hr := List.mem_range'_1.1 ha
      have := hfirst nl hml
      exact h.best a (by omega)

/-- **C05, minimization.** The curve is exactly the best objective value so far. -/
theorem C05_evals_curve_min (env : Env X) (hmin : env.opt = .minimization) (p : Prog X α) (w : World X)
    (hw : (p.run env (World.init env.opt)).2 = w) (e : ℕ) (y : Fl)
    (h : (e, y) ∈ (convergenceEvals w.st).1.zip (convergenceEvals w.st).2) :
    BestOf .minimization (values (w.calls.take e)) y := by
  have := (C05_evals_curve_partial env p w hw).2.2 e y h
  rwa [hmin] at this

/-- **C05, `x_axis='iters'`.** One entry per finished iteration, numbered from 0, monotone. -/
theorem C05_iters_curve (env : Env X) (p : Prog X α) (w : World X) (hw : (p.run env (World.init env.opt)).2 = w) :
    (convergenceIters w.st).1 = List.range w.st.iters ∧
    (convergenceIters w.st).2.length = w.st.iters ∧
    ((convergenceIters w.st).2.Pairwise fun a b => AtLeastAsGood env.opt b a) := by
  subst hw
  exact ⟨rfl, (C04_record_monotone env p).1, (C04_record_monotone env p).2.1⟩

/-! ### A concrete run -/

/-- **C05 is false when maximizing:** maximizing `f(x) = x` over the points 5, 7, 3 yields the curve `-5, -7`
although the best values after the first two evaluations are 5 and 7. -/
theorem C05_evals_curve_max_false :
    ∃ (env : Env ℚ) (p : Prog ℚ Fl) (e : ℕ) (y : Fl), env.opt = .maximization ∧
      (e, y) ∈ (convergenceEvals (p.run env (World.init env.opt)).2.st).1.zip
        (convergenceEvals (p.run env (World.init env.opt)).2.st).2 ∧
      ¬ BestOf .maximization (values ((p.run env (World.init env.opt)).2.calls.take e)) y := by
  refine ⟨Ex.env Ex.idObj .maximization, Ex.client, 2, .fin (-7), rfl, by decide +kernel, ?_⟩
  intro h
  have hm : Fl.fin 7 ∈ values ((Ex.client.run (Ex.env Ex.idObj .maximization)
    (World.init (Ex.env Ex.idObj .maximization).opt)).2.calls.take 2) := by decide +kernel
  have := h.2.2 _ hm (by simp)
  revert this; decide +kernel

/-- The curve of a minimizing run: evaluations 1, 2, 3 with values 5, 5, 3. -/
example : convergenceEvals (Ex.client.run (Ex.env Ex.idObj) (World.init .minimization)).2.st =
    ([1, 2, 3], [.fin 5, .fin 5, .fin 3]) := by decide +kernel

end NiaPy
