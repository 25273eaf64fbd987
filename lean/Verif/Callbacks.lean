import Mathlib.Data.List.Basic
import Verif.Init

/-!
# Which algorithm a callback belongs to (C121)

Callbacks, callback lists and algorithms are objects; a callback may be in several lists and a list may be given to several algorithms. Lists within
lists are not modelled here.
-/

namespace NiaPy.Cb

/-- What can be handed to `append`: a callback, or something else. -/
inductive Item where
  | callback (c : ℕ)
  | other

/-- The objects created so far, by number: the callbacks of every `CallbackList`, the list of every algorithm, and the attribute `algorithm` of every
callback (callbacks.py:8-18). -/
structure St where
  lists : List (List ℕ)
  algs : List ℕ
  algOf : ℕ → Option ℕ

def St.empty : St := ⟨[], [], fun _ => none⟩

/-- `CallbackList.set_algorithm` (callbacks.py:68-77). -/
def setAlgorithm (a : ℕ) (cs : List ℕ) (algOf : ℕ → Option ℕ) : ℕ → Option ℕ :=
  cs.foldl (fun m c => Function.update m c (some a)) algOf

/-- What a program does before and between runs. -/
inductive Op where
  /-- `CallbackList(cs)` (callbacks.py:58-66): the list is copied -/
  | newList (cs : List ℕ)
  /-- an algorithm given the `CallbackList` number `l` (algorithm.py:105-106) -/
  | algWith (l : ℕ)
  /-- an algorithm given a Python list, or nothing, which is the empty list (algorithm.py:105-106) -/
  | algFrom (cs : List ℕ)
  /-- `lists[l].append(e)` (callbacks.py:117-130) -/
  | append (l : ℕ) (e : Item)

/-- One operation. The errors are those of `append`, and of lists that do not exist. -/
def step (s : St) : Op → Except PyErr St
  | .newList cs => .ok { s with lists := s.lists ++ [cs] }
  | .algWith l =>
    match s.lists[l]? with
    | none => .error .indexError
    | some cs => .ok ⟨s.lists, s.algs ++ [l], setAlgorithm s.algs.length cs s.algOf⟩
  | .algFrom cs => .ok ⟨s.lists ++ [cs], s.algs ++ [s.lists.length], setAlgorithm s.algs.length cs s.algOf⟩
  | .append l e =>
    match s.lists[l]?, e with
    | none, _ => .error .indexError
    | some _, .other => .error .valueError
    | some cs, .callback c => .ok { s with lists := s.lists.set l (cs ++ [c]) }

/-- A program; an operation that raises has no effect. -/
def run (s : St) (prog : List Op) : St := prog.foldl (fun s op => match step s op with | .ok s' => s' | .error _ => s) s

/-- The callbacks that a run of algorithm `a` calls, in order (callbacks.py:79-115). -/
def called (s : St) (a : ℕ) : List ℕ := ((s.algs[a]?).bind fun l => s.lists[l]?).getD []

theorem setAlgorithm_eq (a : ℕ) (cs : List ℕ) (m : ℕ → Option ℕ) (c : ℕ) : setAlgorithm a cs m c = if c ∈ cs then some a else m c := by
  unfold setAlgorithm
  induction cs generalizing m with
  | nil => simp
  | cons d cs ih =>
    rw [List.foldl_cons, ih]
    by_cases h : c ∈ cs
    · simp [h]
    · by_cases hd : c = d
      · subst hd; simp [h]
      · simp [h, hd]

/-- Every algorithm has a list. -/
def WF (s : St) : Prop := ∀ l ∈ s.algs, l < s.lists.length

theorem run_cons (s : St) (op : Op) (prog : List Op) : run s (op :: prog) = run (match step s op with | .ok s' => s' | .error _ => s) prog := rfl

theorem wf_step {s s' : St} {op : Op} (h : WF s) (hs : step s op = .ok s') : WF s' := by
  cases op with
  | newList cs =>
    cases hs
    intro l hl
    have := h l hl
    simp; omega
  | algWith l =>
    simp only [step] at hs
    split at hs
    · cases hs
    · rename_i cs hcs
      cases hs
      intro k hk
      rcases List.mem_append.1 hk with hk | hk
      · exact h k hk
      · rw [List.mem_singleton.1 hk]; exact (List.getElem?_eq_some_iff.1 hcs).1
  | algFrom cs =>
    cases hs
    intro k hk
    rcases List.mem_append.1 hk with hk | hk
    · have := h k hk
      simp; omega
    · rw [List.mem_singleton.1 hk]; simp
  | append l e =>
    simp only [step] at hs
    split at hs
    · cases hs
    · cases hs
    · cases hs
      intro k hk
      simpa using h k hk

theorem wf_run {s : St} (h : WF s) (prog : List Op) : WF (run s prog) := by
  induction prog generalizing s with
  | nil => exact h
  | cons op prog ih =>
    rw [run_cons]
    split
    · rename_i s' hs
      exact ih (wf_step h hs)
    · exact ih h

/-- All states that programs reach from the beginning are well formed. -/
theorem wf_reach (prog : List Op) : WF (run .empty prog) := wf_run (fun l hl => absurd hl (by simp [St.empty])) prog

/-- An algorithm that is being constructed gets the callbacks of a list. -/
def Constructs (s : St) (op : Op) (cs : List ℕ) : Prop := op = .algFrom cs ∨ ∃ l, op = .algWith l ∧ s.lists[l]? = some cs

/-- C121: a new algorithm calls exactly the callbacks it was given, in order, and all of them know it. -/
theorem C121_constructed {s : St} {op : Op} {cs : List ℕ} (h : Constructs s op cs) :
    ∃ s', step s op = .ok s' ∧ s'.algs.length = s.algs.length + 1 ∧ called s' s.algs.length = cs ∧ ∀ c ∈ cs, s'.algOf c = some s.algs.length := by
  rcases h with rfl | ⟨l, rfl, hl⟩
  · exact ⟨_, rfl, by simp, by simp [called], fun c hc => by simp only; rw [setAlgorithm_eq, if_pos hc]⟩
  · refine ⟨⟨s.lists, s.algs ++ [l], setAlgorithm s.algs.length cs s.algOf⟩, by simp only [step, hl], by simp, by simp [called, hl], fun c hc => ?_⟩
    simp only
    rw [setAlgorithm_eq, if_pos hc]

/-- C121: whatever a program does, callbacks that an algorithm calls remain called, in the same order; new ones come after them. -/
theorem C121_grows {s : St} (h : WF s) {a : ℕ} (ha : a < s.algs.length) (prog : List Op) : ∃ more, called (run s prog) a = called s a ++ more := by
  induction prog generalizing s with
  | nil => exact ⟨[], by simp [run]⟩
  | cons op prog ih =>
    rw [run_cons]
    split
    · rename_i s' hs
      have hstep : a < s'.algs.length ∧ ∃ more, called s' a = called s a ++ more := by
        obtain ⟨l, hl⟩ : ∃ l, s.algs[a]? = some l := ⟨_, List.getElem?_eq_getElem ha⟩
        have hll : l < s.lists.length := h l (List.mem_of_getElem? hl)
        cases op with
        | newList cs =>
          cases hs
          exact ⟨ha, [], by simp [called, hl, List.getElem?_append_left hll]⟩
        | algWith k =>
          simp only [step] at hs
          split at hs
          · cases hs
          · cases hs
            exact ⟨by simp; omega, [], by simp [called, List.getElem?_append_left ha]⟩
        | algFrom cs =>
          cases hs
          exact ⟨by simp; omega, [], by simp [called, List.getElem?_append_left ha, hl, List.getElem?_append_left hll]⟩
        | append k e =>
          simp only [step] at hs
          split at hs
          · cases hs
          · cases hs
          · rename_i cs c hk
            cases hs
            refine ⟨ha, ?_⟩
            by_cases e : k = l
            · subst e
              exact ⟨[c], by simp only [called, hl, Option.bind_some, List.getElem?_set_self hll, hk, Option.getD_some]⟩
            · exact ⟨[], by simp [called, hl, List.getElem?_set_ne e]⟩
      obtain ⟨h1, more, h2⟩ := hstep
      obtain ⟨more', h3⟩ := ih (wf_step h hs) h1
      exact ⟨more ++ more', by rw [h3, h2, List.append_assoc]⟩
    · exact ih h ha

/-- C121: `append` rejects what is not a callback with `ValueError`, and puts a callback at the end of the list. It does not tell the callback which algorithm
it belongs to. -/
theorem C121_append {s : St} {l : ℕ} {cs : List ℕ} (hl : s.lists[l]? = some cs) :
    step s (.append l .other) = .error .valueError ∧ ∀ c, ∃ s', step s (.append l (.callback c)) = .ok s' ∧ s'.algOf = s.algOf ∧
      ∀ a, s.algs[a]? = some l → called s' a = called s a ++ [c] := by
  refine ⟨by simp only [step, hl], fun c => ⟨{ s with lists := s.lists.set l (cs ++ [c]) }, by simp only [step, hl], rfl, fun a ha => ?_⟩⟩
  simp only [called, ha, Option.bind_some, List.getElem?_set_self (List.getElem?_eq_some_iff.1 hl).1, hl, Option.getD_some]

/-- C121 (what is missing is in C121_algorithm_false): a callback that was given to an algorithm when it was constructed knows this algorithm as long as no
algorithm that is constructed later is given the callback. -/
theorem C121_algorithm_partial {s : St} {a c : ℕ} (hc : s.algOf c = some a) {prog : List Op}
    (hp : ∀ pre op post cs, prog = pre ++ op :: post → Constructs (run s pre) op cs → c ∉ cs) : (run s prog).algOf c = some a := by
  induction prog generalizing s with
  | nil => exact hc
  | cons op prog ih =>
    have hop := fun cs => hp [] op prog cs rfl
    rw [run_cons]
    split
    · rename_i s' hs
      have hs' : run s [op] = s' := by simp [run, hs]
      refine ih ?_ fun pre o post cs e hcs => hp (op :: pre) o post cs (by rw [e]; rfl) (by rw [run_cons, hs]; exact hcs)
      cases op with
      | newList cs => cases hs; exact hc
      | algWith l =>
        simp only [step] at hs
        split at hs
        · cases hs
        · rename_i cs hl
          cases hs
          simp only
          rw [setAlgorithm_eq, if_neg (hop cs (.inr ⟨l, rfl, hl⟩))]
          exact hc
      | algFrom cs =>
        cases hs
        simp only
        rw [setAlgorithm_eq, if_neg (hop cs (.inl rfl))]
        exact hc
      | append l e =>
        simp only [step] at hs
        split at hs
        · cases hs
        · cases hs
        · cases hs; exact hc
    · rename_i hs
      exact ih hc fun pre o post cs e' hcs => hp (op :: pre) o post cs (by rw [e']; rfl) (by rw [run_cons, hs]; exact hcs)

/-- C121 is false: that the callbacks a run calls know the algorithm that is running. A callback appended to the list of an algorithm knows none; and if a list
is given to two algorithms, its callbacks know the second one while the first one runs. -/
theorem C121_algorithm_false :
    (∃ prog, called (run .empty prog) 0 = [7] ∧ (run .empty prog).algOf 7 = none) ∧
    ∃ prog, called (run .empty prog) 0 = [7] ∧ called (run .empty prog) 1 = [7] ∧ (run .empty prog).algOf 7 = some 1 :=
  ⟨⟨[.newList [], .algWith 0, .append 0 (.callback 7)], rfl, rfl⟩, ⟨[.newList [7], .algWith 0, .algWith 0], rfl, rfl, rfl⟩⟩

/-- C121: in general, a callback that is in no list given to an algorithm at its construction knows no algorithm, wherever it is appended later. -/
theorem C121_appended_false {s : St} {c : ℕ} (hc : s.algOf c = none) {prog : List Op}
    (hp : ∀ op ∈ prog, (∃ l e, op = .append l e) ∨ ∃ cs, op = .newList cs) : (run s prog).algOf c = none := by
  induction prog generalizing s with
  | nil => exact hc
  | cons op prog ih =>
    rw [run_cons]
    have hp' := fun o ho => hp o (List.mem_cons_of_mem op ho)
    split
    · rename_i s' hs
      refine ih ?_ hp'
      rcases hp op (by simp) with ⟨l, e, rfl⟩ | ⟨cs, rfl⟩
      · simp only [step] at hs
        split at hs
        · cases hs
        · cases hs
        · cases hs; exact hc
      · cases hs; exact hc
    · exact ih hc hp'

/-- Two algorithms with callbacks of their own. -/
example : called (run .empty [.algFrom [1, 2], .algFrom [3]]) 0 = [1, 2] ∧ (run .empty [.algFrom [1, 2], .algFrom [3]]).algOf 2 = some 0 := ⟨rfl, rfl⟩
example : Constructs (run .empty [.newList [4]]) (.algWith 0) [4] := .inr ⟨0, rfl, rfl⟩

end NiaPy.Cb
