import Verif.Task
import Verif.Factory
import Mathlib.Tactic.Ring

/-!
# Model of `niapy/runner.py`: C46, C47

A dictionary is a function from keys to optional values. What `algorithm.run(task)` returns or raises is an arbitrary function of
the number of runs made before, of the algorithm and of the task. Logging and the contents of the exported files are not
modelled; an exporter may raise.
-/

namespace NiaPy.Runner

/-- An element of `algorithms`: a name or an `Algorithm` object (`ident` tells objects of the same class apart). -/
inductive AlgArg where
  | name (s : String)
  | object (cls : String) (ident : ℕ)
  deriving DecidableEq

/-- An element of `problems`: a name or a `Problem` object. -/
inductive ProbArg where
  | name (s : String)
  | object (cls : String) (ident : ℕ)
  deriving DecidableEq

/-- The key used in the results (runner.py:108-111). -/
def AlgArg.key : AlgArg → String
  | .name s => s
  | .object c _ => c

/-- The key used in the results (runner.py:119-122). -/
def ProbArg.key : ProbArg → String
  | .name s => s
  | .object c _ => c

/-- The task of a run: the problem, the budget and the state of the counters (task.py:58-104). -/
structure RunTask where
  problem : ProbArg
  maxEvals : ℕ
  st : TaskSt

variable {R : Type}

/-- A `Runner` (runner.py:37-54) and what it runs against. -/
structure Cfg (R : Type) where
  algorithms : List AlgArg
  problems : List ProbArg
  runs : ℕ
  maxEvals : ℕ
  /-- `str.lower` -/
  lower : String → String
  /-- constructors called by the factories may raise -/
  makeAlg : String → Except PyErr Unit
  makeProb : String → Except PyErr Unit
  /-- `algorithm.run(task)`; the first argument is the number of runs made before -/
  run : ℕ → AlgArg → RunTask → Except PyErr R
  /-- the exporters -/
  exporter : String → Except PyErr Unit

/-- `self.results` and a record of the runs made. -/
structure St (R : Type) where
  results : String → Option (String → Option (List R))
  log : List (AlgArg × RunTask × Except PyErr R)

/-- `task_factory` (runner.py:56-66) with `Task.__init__` (task.py:78-104): minimization, fresh counters. -/
def taskFactory (c : Cfg R) : ProbArg → Except PyErr RunTask
  | .name s => do
    let cls ← Factory.getProblem c.lower s
    c.makeProb cls
    return ⟨.name s, c.maxEvals, TaskSt.init .minimization⟩
  | .object k i => .ok ⟨.object k i, c.maxEvals, TaskSt.init .minimization⟩

/-- `algorithm = alg` or `get_algorithm(alg)` (runner.py:129-132). -/
def getAlg (c : Cfg R) : AlgArg → Except PyErr Unit
  | .name s => do
    let cls ← Factory.getAlgorithm s
    c.makeAlg cls
  | .object _ _ => .ok ()

/-- `self.results[a][p].append(r)` -/
def St.append (s : St R) (a p : String) (r : R) : St R :=
  { s with results := Function.update s.results a (some (Function.update ((s.results a).getD fun _ => none) p
      (some ((((s.results a).bind (· p)).getD []) ++ [r])))) }

/-- Body of the innermost loop (runner.py:129-134). -/
def runOnce (c : Cfg R) (a : AlgArg) (p : ProbArg) (s : St R) : Except PyErr Unit × St R :=
  match getAlg c a with
  | .error e => (.error e, s)
  | .ok () =>
    match taskFactory c p with
    | .error e => (.error e, s)
    | .ok t =>
      let res := c.run s.log.length a t
      let s := { s with log := s.log ++ [(a, t, res)] }
      match res with
      | .error e => (.error e, s)
      | .ok r => (.ok (), s.append a.key p.key r)

/-- A `for` loop over a list; an exception ends it. -/
def loop {ι : Type} (f : ι → St R → Except PyErr Unit × St R) : List ι → St R → Except PyErr Unit × St R
  | [], s => (.ok (), s)
  | i :: l, s =>
    match f i s with
    | (.error e, s) => (.error e, s)
    | (.ok (), s) => loop f l s

/-- The loop over the problems (runner.py:118-134). -/
def runProblem (c : Cfg R) (a : AlgArg) (p : ProbArg) (s : St R) : Except PyErr Unit × St R :=
  let row := Function.update ((s.results a.key).getD fun _ => none) p.key (some [])
  loop (fun _ => runOnce c a p) (List.range c.runs) { s with results := Function.update s.results a.key (some row) }

/-- The loop over the algorithms (runner.py:107-136). -/
def runAlg (c : Cfg R) (a : AlgArg) (s : St R) : Except PyErr Unit × St R :=
  loop (runProblem c a) c.problems { s with results := Function.update s.results a.key (some fun _ => none) }

/-- `Runner.run` (runner.py:93-145). The exception for an unsupported export type comes after all runs. -/
def run (c : Cfg R) (export_ : String) (s : St R) : Except PyErr (String → Option (String → Option (List R))) × St R :=
  match loop (runAlg c) c.algorithms s with
  | (.error e, s) => (.error e, s)
  | (.ok (), s) =>
    if export_ = "dataframe" ∨ export_ = "json" ∨ export_ = "excel" then
      match c.exporter export_ with
      | .error e => (.error e, s)
      | .ok () => (.ok s.results, s)
    else (.error .typeError, s)

/-! ## Properties -/

/-- `res[a][p]` -/
def get (res : String → Option (String → Option (List R))) (a p : String) : Option (List R) := (res a).bind (· p)

theorem loop_ok {ι : Type} {f : ι → St R → Except PyErr Unit × St R} (J : List ι → St R → Prop)
    (hJ : ∀ done i s s', J done s → f i s = (.ok (), s') → J (done ++ [i]) s') :
    ∀ (l done : List ι) (s s' : St R), J done s → loop f l s = (.ok (), s') → J (done ++ l) s' := by
  intro l
  induction l with
  | nil => intro done s s' h hl; cases hl; simpa using h
  | cons i l ih =>
    intro done s s' h hl
    simp only [loop] at hl
    split at hl
    · cases hl
    · rename_i s1 heq
      have := ih (done ++ [i]) s1 s' (hJ done i s s1 h heq) hl
      simpa using this

theorem get_update (res : String → Option (String → Option (List R))) (a p a' p' : String) (v : Option (List R)) :
    get (Function.update res a (some (Function.update ((res a).getD fun _ => none) p v))) a' p' =
      if a' = a ∧ p' = p then v else get res a' p' := by
  by_cases ha : a' = a
  · subst ha
    by_cases hp : p' = p
    · subst hp; simp [get]
    · simp only [get, Function.update_self, Option.bind_some, Function.update_of_ne hp, true_and, hp, if_false]
      cases res a' <;> simp
  · simp [get, ha]

/-- What is known after a number of successful runs of one pair. -/
theorem runOnce_ok {c : Cfg R} {a : AlgArg} {p : ProbArg} {s s' : St R} (h : runOnce c a p s = (.ok (), s')) :
    ∃ r t, taskFactory c p = .ok t ∧ c.run s.log.length a t = .ok r ∧ s'.log = s.log ++ [(a, t, .ok r)] ∧
      (∀ a' p', get s'.results a' p' = if a' = a.key ∧ p' = p.key then some ((get s.results a' p').getD [] ++ [r]) else get s.results a' p') ∧
      ∀ a', a' ≠ a.key → s'.results a' = s.results a' := by
  unfold runOnce at h
  split at h
  · cases h
  split at h
  · cases h
  rename_i t ht
  simp only at h
  split at h
  · cases h
  rename_i r hr
  cases h
  refine ⟨r, t, ht, hr, by simp [St.append, hr], fun a' p' => ?_, fun a' ha => by simp [St.append, Function.update_of_ne ha]⟩
  simp only [St.append, get_update]
  split
  · rename_i h; obtain ⟨rfl, rfl⟩ := h; rfl
  · rfl

/-- The outcomes of the successful runs in a log. -/
def outcomes (log : List (AlgArg × RunTask × Except PyErr R)) : List R := log.filterMap fun e => match e.2.2 with | .ok r => some r | .error _ => none

theorem outcomes_append (l m : List (AlgArg × RunTask × Except PyErr R)) : outcomes (l ++ m) = outcomes l ++ outcomes m := by
  simp [outcomes]

theorem runProblem_ok {c : Cfg R} {a : AlgArg} {p : ProbArg} {s s' : St R} (h : runProblem c a p s = (.ok (), s')) :
    ∃ block, s'.log = s.log ++ block ∧ block.length = c.runs ∧ (∀ e ∈ block, e.1 = a ∧ taskFactory c p = .ok e.2.1) ∧
      (outcomes block).length = c.runs ∧
      (∀ a' p', get s'.results a' p' = if a' = a.key ∧ p' = p.key then some (outcomes block) else get s.results a' p') ∧
      (∀ a', a' ≠ a.key → s'.results a' = s.results a') := by
  unfold runProblem at h
  simp only at h
  have := loop_ok (f := fun _ => runOnce c a p) (fun done (s1 : St R) => ∃ block, s1.log = s.log ++ block ∧ block.length = done.length ∧
      (∀ e ∈ block, e.1 = a ∧ taskFactory c p = .ok e.2.1) ∧ (outcomes block).length = done.length ∧
      (∀ a' p', get s1.results a' p' = if a' = a.key ∧ p' = p.key then some (outcomes block) else get s.results a' p') ∧
      (∀ a', a' ≠ a.key → s1.results a' = s.results a')) ?_ (List.range c.runs) [] _ s' ?_ h
  · simpa using this
  · rintro done i s1 s2 ⟨block, h1, h2, h3, h4, h5, h6⟩ hf
    obtain ⟨r, t, ht, hr, hl, hg, ho⟩ := runOnce_ok hf
    refine ⟨block ++ [(a, t, .ok r)], by rw [hl, h1]; simp, by simp [h2], fun e he => ?_, by rw [outcomes_append, List.length_append, h4]; simp [outcomes],
      fun a' p' => ?_, fun a' ha => by rw [ho a' ha, h6 a' ha]⟩
    · rcases List.mem_append.1 he with he | he
      · exact h3 e he
      · cases List.mem_singleton.1 he; exact ⟨rfl, ht⟩
    · rw [hg, h5]
      split
      · simp [outcomes_append, outcomes]
      · rfl
  · refine ⟨[], by simp, rfl, by simp, rfl, fun a' p' => ?_, fun a' ha => by simp [Function.update_of_ne ha]⟩
    simp only [get_update]
    rfl

/-- The record of a pair: the outcomes of a block of `runs` consecutive runs of that pair. -/
def PairDone (c : Cfg R) (a : AlgArg) (p : ProbArg) (log : List (AlgArg × RunTask × Except PyErr R)) (l : List R) : Prop :=
  ∃ block, block <:+: log ∧ block.length = c.runs ∧ (∀ e ∈ block, e.1 = a ∧ e.2.1.problem = p ∧ e.2.1.maxEvals = c.maxEvals ∧
    e.2.1.st = TaskSt.init .minimization) ∧ outcomes block = l ∧ l.length = c.runs

theorem PairDone.mono {c : Cfg R} {a : AlgArg} {p : ProbArg} {log log' : List (AlgArg × RunTask × Except PyErr R)} {l : List R}
    (h : PairDone c a p log l) (hl : log <+: log') : PairDone c a p log' l := by
  obtain ⟨block, h1, h2⟩ := h
  exact ⟨block, h1.trans hl.isInfix, h2⟩

theorem taskFactory_fresh {c : Cfg R} {p : ProbArg} {t : RunTask} (h : taskFactory c p = .ok t) :
    t.problem = p ∧ t.maxEvals = c.maxEvals ∧ t.st = TaskSt.init .minimization := by
  cases p with
  | name s =>
    simp only [taskFactory, bind, Except.bind, pure, Except.pure] at h
    split at h
    · cases h
    split at h
    · cases h
    cases h
    exact ⟨rfl, rfl, rfl⟩
  | object k i => cases h; exact ⟨rfl, rfl, rfl⟩

theorem runAlg_ok {c : Cfg R} {a : AlgArg} {s s' : St R} (h : runAlg c a s = (.ok (), s')) :
    s.log <+: s'.log ∧ s'.log.length = s.log.length + c.problems.length * c.runs ∧
      (∀ a', a' ≠ a.key → s'.results a' = s.results a') ∧
      (∀ p ∈ c.problems, ∃ l, get s'.results a.key p.key = some l ∧ ∃ p' ∈ c.problems, p'.key = p.key ∧ PairDone c a p' s'.log l) ∧
      ∀ k, (∀ p ∈ c.problems, p.key ≠ k) → get s'.results a.key k = none := by
  unfold runAlg at h
  have := loop_ok (fun done (s1 : St R) => s.log <+: s1.log ∧ s1.log.length = s.log.length + done.length * c.runs ∧
      (∀ a', a' ≠ a.key → s1.results a' = s.results a') ∧
      (∀ p ∈ done, ∃ l, get s1.results a.key p.key = some l ∧ ∃ p' ∈ done, p'.key = p.key ∧ PairDone c a p' s1.log l) ∧
      ∀ k, (∀ p ∈ done, p.key ≠ k) → get s1.results a.key k = none) ?_ c.problems [] _ s' ?_ h
  · simpa using this
  · rintro done q s1 s2 ⟨h1, h2, h3, h4, h5⟩ hf
    obtain ⟨block, b1, b2, b3, b4, b5, b6⟩ := runProblem_ok hf
    have hpre : s1.log <+: s2.log := ⟨block, b1.symm⟩
    refine ⟨h1.trans hpre, by rw [b1]; simp [h2, b2]; ring, fun a' ha => by rw [b6 a' ha, h3 a' ha], fun p hp => ?_, fun k hk => ?_⟩
    · by_cases hk : p.key = q.key
      · refine ⟨outcomes block, by rw [b5]; simp [hk], q, by simp, hk.symm, block, ?_, b2, fun e he => ?_, rfl, b4⟩
        · rw [b1]; exact (List.suffix_append _ _).isInfix
        · exact ⟨(b3 e he).1, taskFactory_fresh (b3 e he).2⟩
      · have hp' : p ∈ done := by
          rcases List.mem_append.1 hp with hp | hp
          · exact hp
          · cases List.mem_singleton.1 hp; exact absurd rfl hk
        obtain ⟨l, hl, p', hp1, hp2, hp3⟩ := h4 p hp'
        exact ⟨l, by rw [b5]; simp [hk, hl], p', List.mem_append_left _ hp1, hp2, hp3.mono hpre⟩
    · rw [b5]
      have : k ≠ q.key := fun h => hk q (by simp) h.symm
      simp only [this, and_false, if_false]
      exact h5 k fun p hp => hk p (List.mem_append_left _ hp)
  · exact ⟨List.prefix_rfl, by simp, fun a' ha => by simp [Function.update_of_ne ha], by simp, fun k _ => by simp [get]⟩

/-- C46: if `Runner.run` returns, then for every algorithm and every problem given, the results contain under their names a
list with exactly `runs` entries: what consecutive runs of an algorithm and a problem with these names returned, every run on a
new task with the budget `max_evals` and no evaluations made. In all, `#algorithms * #problems * runs` runs were made. -/
theorem C46_results (c : Cfg R) (export_ : String) (s s' : St R) (res : String → Option (String → Option (List R)))
    (h : run c export_ s = (.ok res, s')) :
    s'.log.length = s.log.length + c.algorithms.length * (c.problems.length * c.runs) ∧
    ∀ a ∈ c.algorithms, ∀ p ∈ c.problems, ∃ l, get res a.key p.key = some l ∧ l.length = c.runs ∧
      ∃ a' ∈ c.algorithms, ∃ p' ∈ c.problems, a'.key = a.key ∧ p'.key = p.key ∧ PairDone c a' p' s'.log l := by
  have hloop : loop (runAlg c) c.algorithms s = (.ok (), s') ∧ res = s'.results := by
    unfold run at h
    split at h
    · cases h
    · rename_i s1 heq
      split at h
      · split at h
        · cases h
        · cases h; exact ⟨heq, rfl⟩
      · cases h
  obtain ⟨hloop, rfl⟩ := hloop
  have := loop_ok (fun done (s1 : St R) => s.log <+: s1.log ∧ s1.log.length = s.log.length + done.length * (c.problems.length * c.runs) ∧
      ∀ a ∈ done, ∀ p ∈ c.problems, ∃ l, get s1.results a.key p.key = some l ∧
        ∃ a' ∈ done, ∃ p' ∈ c.problems, a'.key = a.key ∧ p'.key = p.key ∧ PairDone c a' p' s1.log l) ?_ c.algorithms [] s s'
    ⟨List.prefix_rfl, by simp, by simp⟩ hloop
  · refine ⟨by simpa using this.2.1, fun a ha p hp => ?_⟩
    obtain ⟨l, hl, a', ha', p', hp', k1, k2, hd⟩ := this.2.2 a (by simpa using ha) p hp
    obtain ⟨block, hb⟩ := hd
    exact ⟨l, hl, hb.2.2.2.2, a', by simpa using ha', p', hp', k1, k2, block, hb⟩
  · rintro done a s1 s2 ⟨h1, h2, h3⟩ hf
    obtain ⟨b1, b2, b3, b4, -⟩ := runAlg_ok hf
    refine ⟨h1.trans b1, by rw [b2, h2]; simp; ring, fun a' ha' p hp => ?_⟩
    by_cases hk : a'.key = a.key
    · obtain ⟨l, hl, p', hp', k2, hd⟩ := b4 p hp
      exact ⟨l, by rw [hk]; exact hl, a, by simp, p', hp', hk.symm, k2, hd⟩
    · have ha'' : a' ∈ done := by
        rcases List.mem_append.1 ha' with h | h
        · exact h
        · cases List.mem_singleton.1 h; exact absurd rfl hk
      obtain ⟨l, hl, a1, ha1, p', hp', k1, k2, hd⟩ := h3 a' ha'' p hp
      refine ⟨l, ?_, a1, List.mem_append_left _ ha1, p', hp', k1, k2, hd.mono b1⟩
      rw [← hl]
      simp only [get, b3 _ hk]

/-- C47: with an unsupported export type `Runner.run` does not return results; if all runs succeed it raises `TypeError`
(after all of them). With a supported one it returns the results if all runs and the exporter succeed. -/
theorem C47_export (c : Cfg R) (export_ : String) (s : St R) :
    (export_ ∉ ["dataframe", "json", "excel"] →
      (∀ res, (run c export_ s).1 ≠ .ok res) ∧ ((loop (runAlg c) c.algorithms s).1 = .ok () → (run c export_ s).1 = .error .typeError)) ∧
    (export_ ∈ ["dataframe", "json", "excel"] → (loop (runAlg c) c.algorithms s).1 = .ok () → c.exporter export_ = .ok () →
      (run c export_ s).1 = .ok (run c export_ s).2.results) := by
  have hmem : export_ ∈ ["dataframe", "json", "excel"] ↔ export_ = "dataframe" ∨ export_ = "json" ∨ export_ = "excel" := by simp
  unfold run
  constructor
  · intro hx
    rw [hmem] at hx
    split
    · rename_i e s1 heq
      exact ⟨fun res h => by (cases h), fun h => by rw [heq] at h; cases h⟩
    · rw [if_neg hx]
      exact ⟨fun res h => by (cases h), fun _ => rfl⟩
  · intro hx h1 h2
    rw [hmem] at hx
    split
    · rename_i e s1 heq
      rw [heq] at h1; cases h1
    · rw [if_pos hx, h2]

/-- The default value of `algorithms` is a string, which is iterated character by character (runner.py:37-38, 107). -/
def defaultAlgorithms : List AlgArg := "ArtificialBeeColonyAlgorithm".toList.map fun c => .name (String.singleton c)

/-- A runner with the default `algorithms` fails with `KeyError` before the first run if there are problems and `runs > 0`. -/
theorem C46_default_false (c : Cfg R) (ha : c.algorithms = defaultAlgorithms) (hp : c.problems ≠ []) (hr : 0 < c.runs) (export_ : String) (s : St R) :
    (run c export_ s).1 = .error .keyError ∧ (run c export_ s).2.log = s.log := by
  have h0 : defaultAlgorithms = .name "A" :: "rtificialBeeColonyAlgorithm".toList.map fun c => .name (String.singleton c) := by decide +kernel
  have hg : getAlg c (.name "A") = .error .keyError := by
    have : Factory.getAlgorithm "A" = .error .keyError := by
      rw [(Factory.C48_algorithm_lookup "A").2]; decide +kernel
    simp [getAlg, this, bind, Except.bind]
  obtain ⟨p, ps, hps⟩ := List.exists_cons_of_ne_nil hp
  obtain ⟨n, hn⟩ : ∃ n, c.runs = n + 1 := ⟨c.runs - 1, by omega⟩
  simp only [run, ha, h0, loop, runAlg, hps, runProblem, hn, List.range_succ_eq_map, runOnce, hg]
  exact ⟨trivial, trivial⟩

/-! ### Examples -/

def exCfg : Cfg ℕ where
  algorithms := [.name "BatAlgorithm", .object "CuckooSearch" 0]
  problems := [.name "Sphere", .object "MyProblem" 0]
  runs := 3
  maxEvals := 100
  lower := String.toLower
  makeAlg _ := .ok ()
  makeProb _ := .ok ()
  run n _ _ := .ok n
  exporter _ := .ok ()

/-- The hypothesis of C46 holds of a runner with two algorithms, two problems and three runs. -/
example : ∃ res s', run exCfg "json" ⟨fun _ => none, []⟩ = (.ok res, s') ∧ get res "CuckooSearch" "Sphere" = some [6, 7, 8] := by
  have h : (match run exCfg "json" ⟨fun _ => none, []⟩ with
    | (.ok res, _) => decide (get res "CuckooSearch" "Sphere" = some [6, 7, 8])
    | _ => false) = true := by decide +kernel
  split at h
  · rename_i res s' heq; exact ⟨res, s', heq, of_decide_eq_true h⟩
  · cases h

end NiaPy.Runner
