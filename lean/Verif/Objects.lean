import Mathlib.Data.List.Basic
import Verif.Init

/-!
# Individuals as objects (C120)

Individuals hold references to arrays. Here arrays have addresses, so that it can be said which arrays an operation changes. An array
is a list of floats; objects of other types in it, and views (slices that share memory with another array), are not modelled.
-/

namespace NiaPy.Obj

/-- An `Individual` (algorithm.py:335-468): the address of its array `x`, and `f`. -/
structure Ind where
  addr : ℕ
  f : Fl

/-- Arrays by address, the next free address, and the individuals created so far. -/
structure St where
  arr : ℕ → List Fl
  next : ℕ
  objs : List Ind

/-- Position of `x[i]` in an array of length `n`: negative indices count from the end. -/
def pos (n : ℕ) (i : ℤ) : Option ℕ :=
  if 0 ≤ i then if i < n then some i.toNat else none
  else if -(n : ℤ) ≤ i then some (i + n).toNat else none

/-- `__getitem__` (algorithm.py:439-449). -/
def get (s : St) (o : Ind) (i : ℤ) : Except PyErr Fl :=
  match pos (s.arr o.addr).length i with
  | some k => .ok ((s.arr o.addr).getD k .nan)
  | none => .error .indexError

/-- `__len__` (algorithm.py:461-468). -/
def len (s : St) (o : Ind) : ℕ := (s.arr o.addr).length

/-- `__eq__` for two individuals (algorithm.py:428): `np.array_equal` is false for different lengths. -/
def eq (s : St) (o p : Ind) : Bool :=
  (decide ((s.arr o.addr).length = (s.arr p.addr).length) && ((s.arr o.addr).zip (s.arr p.addr)).all fun e => Fl.eqB e.1 e.2) && Fl.eqB o.f p.f

/-- `__eq__` for an array of individuals (algorithm.py:423-427). -/
def eqArr (s : St) (o : Ind) : List Ind → Bool
  | [] => false
  | e :: l => if eq s o e then true else eqArr s o l

/-- What a program can do with individuals. `evaluate` is given the repair function, which works in place like all those in repair.py, and the
objective (`Task.eval`). -/
inductive Op where
  /-- `Individual(x=a)` for an array (algorithm.py:363-365) -/
  | ofArray (a : ℕ)
  /-- `Individual(x=l)` for a list: `np.asarray` makes an array (algorithm.py:365) -/
  | ofList (l : List Fl)
  /-- `inds[k].copy()` (algorithm.py:402-411) -/
  | copy (k : ℕ)
  /-- `inds[k][i] = v` (algorithm.py:451-459) -/
  | set (k : ℕ) (i : ℤ) (v : Fl)
  /-- `inds[k].evaluate(task)` (algorithm.py:385-400) -/
  | evaluate (k : ℕ) (repair : List Fl → List Fl) (obj : List Fl → Fl)

/-- One operation. One that raises changes nothing. -/
def step (s : St) : Op → St
  | .ofArray a => { s with objs := s.objs ++ [⟨a, .pinf⟩] }
  | .ofList l => ⟨Function.update s.arr s.next l, s.next + 1, s.objs ++ [⟨s.next, .pinf⟩]⟩
  | .copy k =>
    match s.objs[k]? with
    | none => s
    | some o => ⟨Function.update s.arr s.next (s.arr o.addr), s.next + 1, s.objs ++ [⟨s.next, .pinf⟩]⟩
  | .set k i v =>
    match s.objs[k]? with
    | none => s
    | some o =>
      match pos (s.arr o.addr).length i with
      | none => s
      | some j => { s with arr := Function.update s.arr o.addr ((s.arr o.addr).set j v) }
  | .evaluate k repair obj =>
    match s.objs[k]? with
    | none => s
    | some o =>
      let x := repair (s.arr o.addr)
      { s with arr := Function.update s.arr o.addr x, objs := s.objs.set k { o with f := obj x } }

def run (s : St) (prog : List Op) : St := prog.foldl step s

/-- All addresses in use are below the next free one. -/
def WF (s : St) : Prop := ∀ o ∈ s.objs, o.addr < s.next

/-! ### Indices -/

theorem pos_lt {n k : ℕ} {i : ℤ} (h : pos n i = some k) : k < n := by
  unfold pos at h
  split at h <;> split at h <;> simp at h <;> omega

/-- C120: `x[i]` raises `IndexError` exactly if `i` is outside `-len ... len - 1`; otherwise it is the component `i`, or `len + i` for negative `i`. -/
theorem C120_index (s : St) (o : Ind) (i : ℤ) :
    (get s o i = .error .indexError ↔ i < -(len s o : ℤ) ∨ (len s o : ℤ) ≤ i) ∧
    (∀ k : ℕ, k < len s o → get s o k = .ok ((s.arr o.addr).getD k .nan) ∧ get s o (k - (len s o : ℤ)) = get s o k) := by
  unfold get len
  constructor
  · have key : pos (s.arr o.addr).length i = none ↔ i < -((s.arr o.addr).length : ℤ) ∨ ((s.arr o.addr).length : ℤ) ≤ i := by
      unfold pos
      split <;> split <;> simp <;> omega
    rw [← key]
    cases pos (s.arr o.addr).length i <;> simp
  · intro k hk
    have h1 : pos (s.arr o.addr).length (k : ℤ) = some k := by
      unfold pos
      rw [if_pos (by omega), if_pos (by omega)]
      simp
    have h2 : pos (s.arr o.addr).length ((k : ℤ) - ((s.arr o.addr).length : ℤ)) = some k := by
      unfold pos
      rw [if_neg (by omega), if_pos (by omega)]
      simp
    rw [h1, h2]
    exact ⟨rfl, rfl⟩

/-- C120: after `inds[k][i] = v` the component is `v`, the other components are as before, and so are the length and the fitness: the fitness is that of
the old solution until the individual is evaluated. -/
theorem C120_set {s : St} {k : ℕ} {o : Ind} (ho : s.objs[k]? = some o) {i : ℤ} {v : Fl} (hi : -(len s o : ℤ) ≤ i) (hi' : i < len s o) :
    get (step s (.set k i v)) o i = .ok v ∧ len (step s (.set k i v)) o = len s o ∧ (step s (.set k i v)).objs = s.objs ∧
    ∀ j, pos (len s o) j ≠ pos (len s o) i → get (step s (.set k i v)) o j = get s o j := by
  obtain ⟨m, hm⟩ : ∃ m, pos (s.arr o.addr).length i = some m := by
    unfold len at hi hi'
    unfold pos
    by_cases h : 0 ≤ i
    · exact ⟨_, by rw [if_pos h, if_pos hi']⟩
    · exact ⟨_, by rw [if_neg h, if_pos hi]⟩
  have hs : step s (.set k i v) = { s with arr := Function.update s.arr o.addr ((s.arr o.addr).set m v) } := by
    simp only [step, ho, hm]
  have hlt := pos_lt hm
  rw [hs]
  refine ⟨?_, by simp [len], rfl, fun j hj => ?_⟩
  · simp [get, hm, List.getD_eq_getElem?_getD, hlt]
  · unfold len at hj
    rw [hm] at hj
    simp only [get, Function.update_self, List.length_set]
    cases hp : pos (s.arr o.addr).length j with
    | none => rfl
    | some q =>
      have hq : m ≠ q := fun e => hj (by rw [hp, e])
      simp [List.getD_eq_getElem?_getD, List.getElem?_set_ne hq]

/-! ### Equality -/

theorem eqB_iff {a b : Fl} : Fl.eqB a b = true ↔ a = b ∧ a ≠ .nan := by simp [Fl.eqB]

theorem zip_eqB {l m : List Fl} (h : l.length = m.length) : ((l.zip m).all fun e => Fl.eqB e.1 e.2) = true ↔ l = m ∧ .nan ∉ l := by
  induction l generalizing m with
  | nil => cases m <;> simp_all
  | cons a l ih =>
    cases m with
    | nil => simp at h
    | cons b m =>
      simp only [List.zip_cons_cons, List.all_cons, Bool.and_eq_true, eqB_iff, ih (by simpa using h), List.cons.injEq, List.mem_cons, not_or]
      constructor
      · rintro ⟨⟨h1, h2⟩, h3, h4⟩; exact ⟨⟨h1, h3⟩, fun e => h2 e.symm, h4⟩
      · rintro ⟨⟨h1, h3⟩, h2, h4⟩; exact ⟨⟨h1, fun e => h2 e.symm⟩, h3, h4⟩

/-- C120: two individuals are equal exactly if they have the same components and the same fitness and there is no NaN among them. -/
theorem C120_eq (s : St) (o p : Ind) :
    eq s o p = true ↔ s.arr o.addr = s.arr p.addr ∧ o.f = p.f ∧ .nan ∉ s.arr o.addr ∧ o.f ≠ .nan := by
  simp only [eq, Bool.and_eq_true, decide_eq_true_eq, eqB_iff]
  constructor
  · rintro ⟨⟨h1, h2⟩, h3, h4⟩
    have := (zip_eqB h1).1 h2
    exact ⟨this.1, h3, this.2, h4⟩
  · rintro ⟨h1, h2, h3, h4⟩
    have hl : (s.arr o.addr).length = (s.arr p.addr).length := by rw [h1]
    exact ⟨⟨hl, (zip_eqB hl).2 ⟨h1, h3⟩⟩, h2, h4⟩

/-- C120: equality is symmetric and transitive, and reflexive on individuals without NaN. -/
theorem C120_equivalence (s : St) : (∀ o p, eq s o p = true → eq s p o = true) ∧ (∀ o p q, eq s o p = true → eq s p q = true → eq s o q = true) ∧
    ∀ o, eq s o o = true ↔ .nan ∉ s.arr o.addr ∧ o.f ≠ .nan := by
  refine ⟨fun o p h => ?_, fun o p q h h' => ?_, fun o => ?_⟩
  · rw [C120_eq] at h ⊢
    exact ⟨h.1.symm, h.2.1.symm, h.1 ▸ h.2.2.1, h.2.1 ▸ h.2.2.2⟩
  · rw [C120_eq] at h h' ⊢
    exact ⟨h.1.trans h'.1, h.2.1.trans h'.2.1, h.2.2⟩
  · rw [C120_eq]
    simp

/-- C120: comparing with an array of individuals is asking whether one of them is equal. -/
theorem C120_member (s : St) (o : Ind) (l : List Ind) : eqArr s o l = true ↔ ∃ e ∈ l, eq s o e = true := by
  induction l with
  | nil => simp [eqArr]
  | cons e l ih =>
    rw [eqArr]
    split
    · rename_i h; simp [h]
    · rename_i h; rw [ih]; simp [h]

/-! ### Who shares an array -/

/-- The operation does not go through an individual of `s` that holds the array `a`, and does not make a new one that does. -/
def Spares (s : St) (a : ℕ) : Op → Prop
  | .ofArray b => b ≠ a
  | .ofList _ => True
  | .copy _ => True
  | .set k _ _ => ∀ o, s.objs[k]? = some o → o.addr ≠ a
  | .evaluate k _ _ => ∀ o, s.objs[k]? = some o → o.addr ≠ a

/-- `t` has the individuals of `s` at the same places with the same arrays, and no new one holds `a`. -/
structure Later (s : St) (a : ℕ) (t : St) : Prop where
  next : a < t.next
  same : t.arr a = s.arr a
  old : ∀ (k : ℕ) o, s.objs[k]? = some o → ∃ o', t.objs[k]? = some o' ∧ o'.addr = o.addr
  new : ∀ (k : ℕ) o, t.objs[k]? = some o → s.objs[k]? = none → o.addr ≠ a

theorem Later.append {s t : St} {a : ℕ} (h : Later s a t) (o : Ind) (ho : o.addr ≠ a) :
    (∀ (k : ℕ) o', s.objs[k]? = some o' → ∃ o'', (t.objs ++ [o])[k]? = some o'' ∧ o''.addr = o'.addr) ∧
    ∀ (k : ℕ) o', (t.objs ++ [o])[k]? = some o' → s.objs[k]? = none → o'.addr ≠ a := by
  constructor
  · intro k o' hk
    obtain ⟨o'', h1, h2⟩ := h.old k o' hk
    exact ⟨o'', by rw [List.getElem?_append_left (List.getElem?_eq_some_iff.1 h1).1]; exact h1, h2⟩
  · intro k o' hk hn
    by_cases hlt : k < t.objs.length
    · rw [List.getElem?_append_left hlt] at hk
      exact h.new k o' hk hn
    · rw [List.getElem?_append_right (by omega)] at hk
      have : o' = o := by
        have := List.mem_of_getElem? hk
        simpa using this
      rw [this]; exact ho

theorem Later.ne {s t : St} {a : ℕ} (h : Later s a t) {k : ℕ} {o : Ind} (ho : t.objs[k]? = some o) (hs : ∀ o, s.objs[k]? = some o → o.addr ≠ a) : o.addr ≠ a := by
  cases hk : s.objs[k]? with
  | none => exact h.new k o ho hk
  | some o' =>
    obtain ⟨o'', h1, h2⟩ := h.old k o' hk
    rw [ho] at h1
    cases h1
    rw [h2]
    exact hs o' hk

theorem later_step {s t : St} {a : ℕ} (h : Later s a t) {op : Op} (hop : Spares s a op) : Later s a (step t op) := by
  cases op with
  | ofArray b =>
    have := h.append ⟨b, .pinf⟩ hop
    exact ⟨h.next, h.same, this.1, this.2⟩
  | ofList l =>
    have := h.append ⟨t.next, .pinf⟩ h.next.ne'
    refine ⟨Nat.lt_succ_of_lt h.next, ?_, this.1, this.2⟩
    simp only [step]
    rw [Function.update_of_ne h.next.ne]
    exact h.same
  | copy k =>
    cases hk : t.objs[k]? with
    | none => simpa only [step, hk] using h
    | some o =>
      have := h.append ⟨t.next, .pinf⟩ h.next.ne'
      simp only [step, hk]
      refine ⟨Nat.lt_succ_of_lt h.next, ?_, this.1, this.2⟩
      simp only
      rw [Function.update_of_ne h.next.ne]
      exact h.same
  | set k i v =>
    cases hk : t.objs[k]? with
    | none => simpa only [step, hk] using h
    | some o =>
      have hne := h.ne hk hop
      cases hp : pos (t.arr o.addr).length i with
      | none => simpa only [step, hk, hp] using h
      | some j =>
        simp only [step, hk, hp]
        refine ⟨h.next, ?_, h.old, h.new⟩
        simp only
        rw [Function.update_of_ne hne.symm]
        exact h.same
  | evaluate k r f =>
    cases hk : t.objs[k]? with
    | none => simpa only [step, hk] using h
    | some o =>
      have hne := h.ne hk hop
      simp only [step, hk]
      refine ⟨h.next, ?_, fun k' o' hk' => ?_, fun k' o' hk' hn => ?_⟩
      · simp only
        rw [Function.update_of_ne hne.symm]
        exact h.same
      · obtain ⟨o'', h1, h2⟩ := h.old k' o' hk'
        by_cases e : k = k'
        · subst e
          rw [hk] at h1
          cases h1
          exact ⟨_, List.getElem?_set_self (List.getElem?_eq_some_iff.1 hk).1, h2⟩
        · exact ⟨o'', by rw [← h1]; exact List.getElem?_set_ne e, h2⟩
      · by_cases e : k = k'
        · subst e
          simp only [List.getElem?_set_self (List.getElem?_eq_some_iff.1 hk).1, Option.some.injEq] at hk'
          rw [← hk']
          exact hne
        · rw [List.getElem?_set_ne e] at hk'
          exact h.new k' o' hk' hn

theorem later_run {s t : St} {a : ℕ} {prog : List Op} (h : Later s a t) (hp : ∀ op ∈ prog, Spares s a op) : Later s a (run t prog) := by
  induction prog generalizing t with
  | nil => exact h
  | cons op prog ih => exact ih (later_step h (hp op (by simp))) fun op hop => hp op (by simp [hop])

/-- C120: an array changes only through individuals that hold it. Whatever a program does with other individuals, and with those it creates on the way, the
array stays as it is. -/
theorem C120_untouched {s : St} {a : ℕ} (ha : a < s.next) {prog : List Op} (hp : ∀ op ∈ prog, Spares s a op) : (run s prog).arr a = s.arr a :=
  (later_run (s := s) (t := s) ⟨ha, rfl, fun _ o h => ⟨o, h, rfl⟩, fun k o h hn => by rw [h] at hn; cases hn⟩ hp).same

/-- C120: a copy can be edited safely. It has the components of the original in an array that no other individual holds; a program that leaves the
copy alone does not change its components, and one that works on the copy and on individuals with other arrays does not change those of the original. -/
theorem C120_copy {s : St} (hw : WF s) {k : ℕ} {o : Ind} (ho : s.objs[k]? = some o) {c : ℕ} (hc : c = s.objs.length) : ∃ o', (step s (.copy k)).objs[c]? = some o' ∧
    (step s (.copy k)).arr o'.addr = s.arr o.addr ∧ (∀ e ∈ s.objs, e.addr ≠ o'.addr) ∧
    (∀ prog : List Op, (∀ op ∈ prog, match op with
        | .ofArray b => b ≠ o'.addr
        | .set k' _ _ => k' ≠ c
        | .evaluate k' _ _ => k' ≠ c
        | _ => True) → (run (step s (.copy k)) prog).arr o'.addr = s.arr o.addr) ∧
    ∀ prog : List Op, (∀ op ∈ prog, match op with
        | .ofArray b => b ≠ o.addr
        | .set k' _ _ => k' = c
        | .evaluate k' _ _ => k' = c
        | _ => True) → (run (step s (.copy k)) prog).arr o.addr = s.arr o.addr := by
  subst hc
  have hs : step s (.copy k) = ⟨Function.update s.arr s.next (s.arr o.addr), s.next + 1, s.objs ++ [⟨s.next, .pinf⟩]⟩ := by simp only [step, ho]
  have hlt := hw o (List.mem_of_getElem? ho)
  rw [hs]
  refine ⟨⟨s.next, .pinf⟩, by simp, by simp, fun e he => (hw e he).ne, fun prog hp => ?_, fun prog hp => ?_⟩
  · refine (C120_untouched (by simp) fun op hop => ?_).trans (by simp)
    have key : ∀ k', k' ≠ s.objs.length → ∀ e : Ind, (s.objs ++ [(⟨s.next, .pinf⟩ : Ind)])[k']? = some e → e.addr ≠ s.next := by
      intro k' hk' e he
      by_cases hl : k' < s.objs.length
      · rw [List.getElem?_append_left hl] at he
        exact (hw e (List.mem_of_getElem? he)).ne
      · rw [List.getElem?_eq_none (by simp; omega)] at he
        cases he
    have := hp op hop
    cases op with
    | ofArray b => exact this
    | ofList l => trivial
    | copy k => trivial
    | set k' i v => exact key k' this
    | evaluate k' r f => exact key k' this
  · refine (C120_untouched (a := o.addr) (by simp; omega) fun op hop => ?_).trans (by simp [hlt.ne])
    have key : ∀ k', k' = s.objs.length → ∀ e : Ind, (s.objs ++ [(⟨s.next, .pinf⟩ : Ind)])[k']? = some e → e.addr ≠ o.addr := by
      rintro k' rfl e he
      simp at he
      rw [← he]
      exact hlt.ne'
    have := hp op hop
    cases op with
    | ofArray b => exact this
    | ofList l => trivial
    | copy k => trivial
    | set k' i v => exact key k' this
    | evaluate k' r f => exact key k' this

/-- C120: an individual made from an array holds that array itself. Setting a component changes the array of the caller, and evaluating the individual
leaves the repaired solution in it. -/
theorem C120_shared (s : St) (a : ℕ) :
    (∀ (i : ℕ) (v : Fl), i < (s.arr a).length → (run s [.ofArray a, .set s.objs.length i v]).arr a = (s.arr a).set i v) ∧
    ∀ r f, (run s [.ofArray a, .evaluate s.objs.length r f]).arr a = r (s.arr a) := by
  constructor
  · intro i v hi
    have hp : pos (s.arr a).length (i : ℤ) = some i := by
      unfold pos
      rw [if_pos (by omega), if_pos (by omega)]
      simp
    simp [run, step, hp]
  · intro r f
    simp [run, step]

/-- C120: an individual made from a list holds an array of its own. -/
theorem C120_list {s : St} (hw : WF s) (l : List Fl) : ∃ o, (step s (.ofList l)).objs[s.objs.length]? = some o ∧ (step s (.ofList l)).arr o.addr = l ∧
    ∀ e ∈ s.objs, e.addr ≠ o.addr :=
  ⟨⟨s.next, .pinf⟩, by simp [step], by simp [step], fun e he => (hw e he).ne⟩

/-- A state with an array and two individuals, one of them holding it. -/
def Ex.s : St := run ⟨fun a => if a = 0 then [.fin 7, .fin 8] else [], 1, []⟩ [.ofArray 0, .ofList [.fin 1, .fin 2]]

example : WF Ex.s := by
  intro o ho
  have : o = ⟨0, .pinf⟩ ∨ o = ⟨1, .pinf⟩ := by simpa [Ex.s, run, step] using ho
  rcases this with rfl | rfl <;> simp [Ex.s, run, step]
example : (run Ex.s [.copy 0, .set 2 (-1) (.fin 9)]).arr 0 = [.fin 7, .fin 8] ∧ (run Ex.s [.copy 0, .set 2 (-1) (.fin 9)]).arr 2 = [.fin 7, .fin 9] := by
  decide +kernel
example : (run Ex.s [.set 0 1 (.fin 9)]).arr 0 = [.fin 7, .fin 9] := by decide +kernel
example : get Ex.s ⟨1, .pinf⟩ (-2) = .ok (.fin 1) ∧ get Ex.s ⟨1, .pinf⟩ 2 = .error .indexError := ⟨rfl, rfl⟩
example : eqArr Ex.s ⟨1, .fin 3⟩ [⟨0, .fin 3⟩, ⟨1, .fin 3⟩] = true := by decide +kernel

end NiaPy.Obj
