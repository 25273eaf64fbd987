import Verif.Factory
import Verif.Task
import Mathlib.Data.List.Induction

/-!
# Model of `niapy/util/argparser.py`: C87

The splitting of `argv` into option occurrences with their strings (abbreviations, `--name=value`, `-d10`, where the strings of
an option with `nargs='*'` or `'+'` end) is done by `argparse` of the standard library and is not modelled: a command line is
the list of its option occurrences, in order. `int` of Python is the parameter `toInt`, `none` when it raises `ValueError`.
-/

namespace NiaPy.ArgParser

/-- The destinations of `get_argparser` (argparser.py:82-90). -/
inductive Dest where
  | algo | problem | dimension | maxEvals | maxIters | populationSize | runType | seed | optType
  deriving DecidableEq

/-- `_get_problem_names` (argparser.py:21-23): `niapy.problems.__all__` (problems/__init__.py:41-90). -/
def problemNames : List String := "Problem" :: Factory.exportedProblems

/-- `_optimization_type` (argparser.py:26-38); the log message is not modelled. -/
def optimizationType (x : String) : OptType := if x == "max" then .maximization else .minimization

/-- The namespace returned by `get_args`. `problem` is a string when it is the default and a list otherwise; `none` in a
budget is `np.inf`. -/
structure Args where
  algo : String
  problem : String ⊕ List String
  dimension : Int
  maxEvals : Option Int
  maxIters : Option Int
  populationSize : Int
  runType : String
  seed : List (Option Int)
  optType : OptType
  deriving DecidableEq

/-- The defaults of `get_argparser` (argparser.py:81-90). -/
def defaults : Args where
  algo := "jDE"
  problem := .inl (problemNames.headD "")
  dimension := 10
  maxEvals := none
  maxIters := none
  populationSize := 43
  runType := ""
  seed := [none]
  optType := optimizationType "min"

/-- `nargs=None`: exactly one string. -/
def one (l : List String) : Option String :=
  match l with
  | [s] => some s
  | _ => none

/-- One option occurrence with its strings (argparser.py:82-90): number of strings, `type`, `choices`, and the assignment.
`none` is the error exit of `ArgumentParser`. -/
def assign (toInt : String → Option Int) (a : Args) (o : Dest × List String) : Option Args :=
  match o.1 with
  | .algo => (one o.2).map fun s => { a with algo := s }
  | .problem => if o.2.all (problemNames.contains ·) then some { a with problem := .inr o.2 } else none
  | .dimension => ((one o.2).bind toInt).map fun i => { a with dimension := i }
  | .maxEvals => ((one o.2).bind toInt).map fun i => { a with maxEvals := some i }
  | .maxIters => ((one o.2).bind toInt).map fun i => { a with maxIters := some i }
  | .populationSize => ((one o.2).bind toInt).map fun i => { a with populationSize := i }
  | .runType => (one o.2).bind fun s => if ["", "log", "plot"].contains s then some { a with runType := s } else none
  | .seed => if o.2.isEmpty then none else (o.2.mapM toInt).map fun l => { a with seed := l.map some }
  | .optType => (one o.2).map fun s => { a with optType := optimizationType s }

/-- `get_args` (argparser.py:94-110), and `get_args_dict` (argparser.py:113-126), which gives the same values as a `dict`. -/
def getArgs (toInt : String → Option Int) (argv : List (Dest × List String)) : Option Args :=
  argv.foldlM (assign toInt) defaults

/-! ## What a user expects -/

/-- The strings of the last occurrence of an option. -/
def lastOf (d : Dest) (argv : List (Dest × List String)) : Option (List String) :=
  (argv.reverse.find? (·.1 = d)).map (·.2)

/-- The strings of an option are acceptable. -/
def Valid (toInt : String → Option Int) : Dest → List String → Prop
  | .algo, l => l.length = 1
  | .optType, l => l.length = 1
  | .problem, l => ∀ s ∈ l, s ∈ problemNames
  | .runType, l => l = [""] ∨ l = ["log"] ∨ l = ["plot"]
  | .seed, l => l ≠ [] ∧ ∀ s ∈ l, (toInt s).isSome
  | _, l => ∃ s i, l = [s] ∧ toInt s = some i

/-- What an option given last with the strings `l` means. -/
def Means (toInt : String → Option Int) (a : Args) : Dest → List String → Prop
  | .algo, l => l = [a.algo]
  | .problem, l => a.problem = .inr l
  | .dimension, l => l.map toInt = [some a.dimension]
  | .maxEvals, l => ∃ i, a.maxEvals = some i ∧ l.map toInt = [some i]
  | .maxIters, l => ∃ i, a.maxIters = some i ∧ l.map toInt = [some i]
  | .populationSize, l => l.map toInt = [some a.populationSize]
  | .runType, l => l = [a.runType]
  | .seed, l => a.seed = l.map toInt ∧ ∀ s ∈ a.seed, s ≠ none
  | .optType, l => ∃ s, l = [s] ∧ (a.optType = .maximization ↔ s = "max")

/-- What an option means that is not given. -/
def Default (a : Args) : Dest → Prop
  | .algo => a.algo = "jDE"
  | .problem => a.problem = .inl "Problem"
  | .dimension => a.dimension = 10
  | .maxEvals => a.maxEvals = none
  | .maxIters => a.maxIters = none
  | .populationSize => a.populationSize = 43
  | .runType => a.runType = ""
  | .seed => a.seed = [none]
  | .optType => a.optType = .minimization

/-- The value of an option in the namespace. -/
def Same (a b : Args) : Dest → Prop
  | .algo => a.algo = b.algo
  | .problem => a.problem = b.problem
  | .dimension => a.dimension = b.dimension
  | .maxEvals => a.maxEvals = b.maxEvals
  | .maxIters => a.maxIters = b.maxIters
  | .populationSize => a.populationSize = b.populationSize
  | .runType => a.runType = b.runType
  | .seed => a.seed = b.seed
  | .optType => a.optType = b.optType

theorem one_iff {l : List String} {s : String} : one l = some s ↔ l = [s] := by
  match l with
  | [] => simp [one]
  | [_] => simp [one]
  | _ :: _ :: _ => simp [one]

theorem optimizationType_max (s : String) : optimizationType s = .maximization ↔ s = "max" := by
  by_cases h : s = "max" <;> simp [optimizationType, h]

theorem mapM_some {toInt : String → Option Int} {l : List String} {r : List Int} :
    l.mapM toInt = some r ↔ l.map toInt = r.map some := by
  induction l generalizing r with
  | nil => cases r <;> simp
  | cons a l ih =>
    simp only [List.mapM_cons, Option.pure_def, Option.bind_eq_bind, Option.bind_eq_some_iff, List.map_cons]
    constructor
    · rintro ⟨i, hi, t, ht, e⟩
      cases e
      rw [hi, ih.1 ht]; rfl
    · intro h
      cases r with
      | nil => cases h
      | cons i t =>
        simp only [List.map_cons, List.cons.injEq] at h
        exact ⟨i, h.1, t, ih.2 h.2, rfl⟩

/-- One occurrence sets its own option and no other. -/
theorem assign_some {toInt : String → Option Int} {a b : Args} {o : Dest × List String} (h : assign toInt a o = some b) :
    Valid toInt o.1 o.2 ∧ Means toInt b o.1 o.2 ∧ ∀ d, d ≠ o.1 → Same b a d := by
  obtain ⟨d, l⟩ := o
  cases d <;> simp only [assign, Option.map_eq_some_iff, Option.bind_eq_some_iff, one_iff] at h
  case algo =>
    obtain ⟨s, rfl, rfl⟩ := h
    refine ⟨rfl, rfl, fun d hd => ?_⟩
    cases d <;> first | exact absurd rfl hd | rfl
  case problem =>
    split at h
    · rename_i hc
      cases h
      refine ⟨fun s hs => ?_, rfl, fun d hd => ?_⟩
      · simpa using List.all_eq_true.1 hc s hs
      · cases d <;> first | exact absurd rfl hd | rfl
    · cases h
  case dimension =>
    obtain ⟨i, ⟨s, rfl, hi⟩, rfl⟩ := h
    refine ⟨⟨s, i, rfl, hi⟩, ?_, fun d hd => ?_⟩
    · simp [Means, hi]
    · cases d <;> first | exact absurd rfl hd | rfl
  case maxEvals =>
    obtain ⟨i, ⟨s, rfl, hi⟩, rfl⟩ := h
    refine ⟨⟨s, i, rfl, hi⟩, ⟨i, rfl, ?_⟩, fun d hd => ?_⟩
    · simp [hi]
    · cases d <;> first | exact absurd rfl hd | rfl
  case maxIters =>
    obtain ⟨i, ⟨s, rfl, hi⟩, rfl⟩ := h
    refine ⟨⟨s, i, rfl, hi⟩, ⟨i, rfl, ?_⟩, fun d hd => ?_⟩
    · simp [hi]
    · cases d <;> first | exact absurd rfl hd | rfl
  case populationSize =>
    obtain ⟨i, ⟨s, rfl, hi⟩, rfl⟩ := h
    refine ⟨⟨s, i, rfl, hi⟩, ?_, fun d hd => ?_⟩
    · simp [Means, hi]
    · cases d <;> first | exact absurd rfl hd | rfl
  case runType =>
    obtain ⟨s, rfl, h⟩ := h
    split at h
    · rename_i hc
      cases h
      refine ⟨?_, rfl, fun d hd => ?_⟩
      · simpa [Valid] using hc
      · cases d <;> first | exact absurd rfl hd | rfl
    · cases h
  case seed =>
    split at h
    · cases h
    · rename_i hc
      obtain ⟨r, hr, rfl⟩ := Option.map_eq_some_iff.1 h
      have hm := mapM_some.1 hr
      refine ⟨⟨by simpa using hc, fun s hs => ?_⟩, ⟨hm.symm, ?_⟩, fun d hd => ?_⟩
      · have : toInt s ∈ r.map some := hm ▸ List.mem_map_of_mem hs
        obtain ⟨i, -, hi⟩ := List.mem_map.1 this
        rw [← hi]; rfl
      · intro s hs
        obtain ⟨i, -, rfl⟩ := List.mem_map.1 hs
        simp
      · cases d <;> first | exact absurd rfl hd | rfl
  case optType =>
    obtain ⟨s, rfl, rfl⟩ := h
    refine ⟨rfl, ⟨s, rfl, optimizationType_max s⟩, fun d hd => ?_⟩
    cases d <;> first | exact absurd rfl hd | rfl

theorem assign_valid {toInt : String → Option Int} (a : Args) {o : Dest × List String} (h : Valid toInt o.1 o.2) :
    ∃ b, assign toInt a o = some b := by
  obtain ⟨d, l⟩ := o
  cases d <;> simp only [Valid] at h
  case algo => obtain ⟨s, rfl⟩ := List.length_eq_one_iff.1 h; exact ⟨_, rfl⟩
  case optType => obtain ⟨s, rfl⟩ := List.length_eq_one_iff.1 h; exact ⟨_, rfl⟩
  case problem =>
    have : l.all (problemNames.contains ·) = true := List.all_eq_true.2 fun s hs => by simpa using h s hs
    exact ⟨_, by simp only [assign, this, if_true]; rfl⟩
  case runType => rcases h with rfl | rfl | rfl <;> exact ⟨_, rfl⟩
  case seed =>
    obtain ⟨h1, h2⟩ := h
    have : ∃ r, l.mapM toInt = some r := by
      refine ⟨l.map fun s => (toInt s).getD 0, mapM_some.2 ?_⟩
      rw [List.map_map]
      refine List.map_congr_left fun s hs => ?_
      obtain ⟨i, hi⟩ := Option.isSome_iff_exists.1 (h2 s hs)
      simp [hi]
    obtain ⟨r, hr⟩ := this
    have he : l.isEmpty = false := by cases l with | nil => exact absurd rfl h1 | cons => rfl
    exact ⟨_, by simp only [assign, he, hr, Bool.false_eq_true, if_false, Option.map_some]; rfl⟩
  all_goals
    obtain ⟨s, i, rfl, hi⟩ := h
    exact ⟨_, by simp only [assign, one, Option.bind_some, hi, Option.map_some]; rfl⟩

theorem Same.default {a b : Args} {d : Dest} (h : Same a b d) (hb : Default b d) : Default a d := by
  cases d <;> simp only [Same, Default] at h hb ⊢ <;> rw [h] <;> exact hb

theorem Same.means {toInt : String → Option Int} {a b : Args} {d : Dest} {l : List String} (h : Same a b d)
    (hb : Means toInt b d l) : Means toInt a d l := by
  cases d <;> simp only [Same, Means] at h hb ⊢ <;> rw [h] <;> exact hb

theorem defaults_default (d : Dest) : Default defaults d := by cases d <;> rfl

/-- C87, as far as it holds: the parser accepts a command line exactly when the strings of every option occurrence are
acceptable, and then every option has the value of its last occurrence, or the default when it does not occur. -/
theorem C87_partial (toInt : String → Option Int) (argv : List (Dest × List String)) :
    ((∃ a, getArgs toInt argv = some a) ↔ ∀ o ∈ argv, Valid toInt o.1 o.2) ∧
    ∀ a, getArgs toInt argv = some a → ∀ d,
      (∀ l, lastOf d argv = some l → Means toInt a d l) ∧ (lastOf d argv = none → Default a d) := by
  induction argv using List.reverseRecOn with
  | nil => exact ⟨by simp [getArgs], fun a h d => by cases h; exact ⟨by simp [lastOf], fun _ => defaults_default d⟩⟩
  | append_singleton argv o ih =>
    obtain ⟨ih1, ih2⟩ := ih
    have hf : getArgs toInt (argv ++ [o]) = (getArgs toInt argv).bind fun a => assign toInt a o := by
      simp only [getArgs, List.foldlM_append]
      cases h : List.foldlM (assign toInt) defaults argv with
      | none => rfl
      | some a => simp [List.foldlM_cons, List.foldlM_nil]
    constructor
    · rw [hf]
      constructor
      · rintro ⟨b, hb⟩
        obtain ⟨a, ha, hb⟩ := Option.bind_eq_some_iff.1 hb
        intro o' ho'
        rcases List.mem_append.1 ho' with ho' | ho'
        · exact ih1.1 ⟨a, ha⟩ o' ho'
        · rw [List.mem_singleton.1 ho']; exact (assign_some hb).1
      · intro h
        obtain ⟨a, ha⟩ := ih1.2 fun o' ho' => h o' (List.mem_append_left _ ho')
        obtain ⟨b, hb⟩ := assign_valid (toInt := toInt) a (h o (by simp))
        exact ⟨b, by rw [ha]; exact hb⟩
    · intro b hb d
      rw [hf] at hb
      obtain ⟨a, ha, hb⟩ := Option.bind_eq_some_iff.1 hb
      obtain ⟨-, hm, hs⟩ := assign_some hb
      have hl : lastOf d (argv ++ [o]) = if o.1 = d then some o.2 else lastOf d argv := by
        simp only [lastOf, List.reverse_append, List.reverse_singleton, List.singleton_append, List.find?_cons]
        by_cases h : o.1 = d <;> simp [h]
      rw [hl]
      by_cases h : o.1 = d
      · rw [if_pos h]
        refine ⟨fun l e => ?_, fun e => by cases e⟩
        cases e
        rw [← h]; exact hm
      · rw [if_neg h]
        have := hs d (Ne.symm h)
        exact ⟨fun l e => this.means ((ih2 a ha d).1 l e), fun e => this.default ((ih2 a ha d).2 e)⟩

/-- Every problem name given on an accepted command line is a class of `niapy.problems`, and `get_problem` accepts it unless
it is `Problem` or one of the 13 classes of `Factory.unreachableProblems`. -/
theorem C87_problem_partial (toInt : String → Option Int) (argv : List (Dest × List String)) (a : Args)
    (h : getArgs toInt argv = some a) (l : List String) (hl : a.problem = .inr l) (s : String) (hs : s ∈ l) :
    s ∈ problemNames ∧ (s ≠ "Problem" → s ∉ Factory.unreachableProblems → Factory.getProblem String.toLower s = .ok s) ∧
    (s = "Problem" ∨ s ∈ Factory.unreachableProblems → Factory.getProblem String.toLower s = .error .keyError) := by
  obtain ⟨hv, hm⟩ := C87_partial toInt argv
  have hv := hv.1 ⟨a, h⟩
  have hp : s ∈ problemNames := by
    cases e : lastOf .problem argv with
    | none =>
      have := (hm a h .problem).2 e
      simp only [Default, hl] at this
      cases this
    | some l' =>
      have := (hm a h .problem).1 l' e
      simp only [Means, hl] at this
      cases this
      simp only [lastOf, Option.map_eq_some_iff] at e
      obtain ⟨o, ho, rfl⟩ := e
      have h1 : o.1 = .problem := by simpa using List.find?_some ho
      have := hv o (by simpa using List.mem_of_find?_eq_some ho)
      rw [h1] at this
      exact this s hs
  have hsub : ∀ s ∈ Factory.unreachableProblems, s ∈ Factory.exportedProblems := by decide +kernel
  have hP : Factory.getProblem String.toLower "Problem" = .error .keyError := by
    have : Factory.problemTable.lookup "Problem".toLower = none := by decide +kernel
    simp only [Factory.getProblem, Factory.pop, this]
  refine ⟨hp, fun h1 h2 => ?_, ?_⟩
  · have : s ∈ Factory.exportedProblems := by
      rcases List.mem_cons.1 hp with e | e
      · exact absurd e h1
      · exact e
    exact (Factory.C48_problem_names_partial String.toLower s s this rfl).1 h2
  · rintro (rfl | e)
    · exact hP
    · exact (Factory.C48_problem_names_partial String.toLower s s (hsub s e) rfl).2 e

/-- C87 is false of the algorithm: without `-a` the name is `jDE`, which `get_algorithm` refuses. -/
theorem C87_algorithm_false (toInt : String → Option Int) (argv : List (Dest × List String)) (a : Args)
    (h : getArgs toInt argv = some a) (hn : ∀ o ∈ argv, o.1 ≠ .algo) : Factory.getAlgorithm a.algo = .error .keyError := by
  have e : lastOf .algo argv = none := by
    simp only [lastOf, Option.map_eq_none_iff, List.find?_eq_none, List.mem_reverse, decide_eq_true_eq]
    exact hn
  have := ((C87_partial toInt argv).2 a h .algo).2 e
  simp only [Default] at this
  rw [this]
  have h' : Factory.algorithmTable.lookup "jDE" = none := by decide +kernel
  simp only [Factory.getAlgorithm, Factory.pop, h']

/-- C87 is false of the problem: without `-p` the name is that of the abstract class `Problem`, not the documented `Ackley`, and
`get_problem` refuses it; it is also not one of the values `-p` can give, which are lists. -/
theorem C87_default_problem_false (toInt : String → Option Int) (argv : List (Dest × List String)) (a : Args)
    (h : getArgs toInt argv = some a) (hn : ∀ o ∈ argv, o.1 ≠ .problem) :
    a.problem = .inl "Problem" ∧ Factory.getProblem String.toLower "Problem" = .error .keyError := by
  have e : lastOf .problem argv = none := by
    simp only [lastOf, Option.map_eq_none_iff, List.find?_eq_none, List.mem_reverse, decide_eq_true_eq]
    exact hn
  have h' : Factory.problemTable.lookup "Problem".toLower = none := by decide +kernel
  exact ⟨((C87_partial toInt argv).2 a h .problem).2 e, by simp only [Factory.getProblem, Factory.pop, h']⟩

/-- C87 is false of problems that are given: the parser accepts `-p BentCigar`, `get_problem` does not. -/
theorem C87_problem_false (toInt : String → Option Int) : ∃ a, getArgs toInt [(.problem, ["BentCigar"])] = some a ∧
    a.problem = .inr ["BentCigar"] ∧ Factory.getProblem String.toLower "BentCigar" = .error .keyError := by
  have h : "BentCigar" ∈ problemNames := by decide +kernel
  refine ⟨{ defaults with problem := .inr ["BentCigar"] }, ?_, rfl, Factory.C48_problem_names_false.2⟩
  simp [getArgs, assign, h]

/-- A decimal digit is an `int`. -/
def Ex.digit (s : String) : Option Int := if s = "5" then some 5 else if s = "7" then some 7 else none

/-- The hypotheses hold: `-d 5 --seed 5 7 --opt-type max -d 7`. -/
example : getArgs Ex.digit [(.dimension, ["5"]), (.seed, ["5", "7"]), (.optType, ["max"]), (.dimension, ["7"])] =
    some { defaults with dimension := 7, seed := [some 5, some 7], optType := .maximization } := by decide +kernel

example : getArgs Ex.digit [(.dimension, ["x"])] = none := by decide +kernel

example : getArgs Ex.digit [(.problem, ["Ackley", "Sphere"])] = some { defaults with problem := .inr ["Ackley", "Sphere"] } := by
  decide +kernel

end NiaPy.ArgParser
