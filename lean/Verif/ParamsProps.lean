import Verif.ParamsTable

/-!
# Parameters survive `set_parameters(**get_parameters())`, and the constructor agrees with `set_parameters` (C83, C84)

The interpreter never inspects a value, so a run on arbitrary values is the image of a run on symbols (`call_map`, `getCall_map`).  The theorems
about all values are therefore decided by one run on symbols per class.
-/

namespace NiaPy.Params
set_option linter.constructorNameAsVariable false

/-- A map of values that respects constants and operations. -/
structure Hom {V W : Type*} (I : Interp V) (J : Interp W) (φ : V → W) : Prop where
  const : ∀ s, φ (I.const s) = J.const s
  op : ∀ s x y, φ (I.op s x y) = J.op s (φ x) (φ y)

section
variable {V W : Type*} {I : Interp V} {J : Interp W} {φ : V → W}

def mapD (φ : V → W) (d : Dict V) : Dict W := d.map fun e => (e.1, φ e.2)
def mapO (φ : V → W) (σ : Obj V) : Obj W := mapD φ σ
def mapF (φ : V → W) (f : Frame V) : Frame W := ⟨mapD φ f.loc, f.args.map φ, mapD φ f.kw⟩
def mapS (φ : V → W) (s : Obj V × Frame V) : Obj W × Frame W := (mapO φ s.1, mapF φ s.2)

theorem find_map (d : Dict V) (n : Nm) : Dict.find (mapD φ d) n = (Dict.find d n).map φ := by
  induction d with
  | nil => rfl
  | cons e d ih =>
    obtain ⟨k, v⟩ := e
    show (if k = n then some (φ v) else Dict.find (mapD φ d) n) = Option.map φ (if k = n then some v else Dict.find d n)
    by_cases h : k = n
    · rw [if_pos h, if_pos h]; rfl
    · rw [if_neg h, if_neg h, ih]

theorem filter_map (d : Dict V) (p : Nm → Bool) :
    List.filter (fun e => p e.1) (mapD φ d) = mapD φ (List.filter (fun e => p e.1) d) := by
  unfold mapD
  rw [List.filter_map]
  rfl

theorem drop_map (d : Dict V) (n : Nm) : Dict.drop (mapD φ d) n = mapD φ (Dict.drop d n) :=
  filter_map d fun k => decide (k ≠ n)

theorem append_map (d d' : Dict V) : mapD φ d ++ mapD φ d' = mapD φ (d ++ d') := (List.map_append).symm

theorem put_map (d : Dict V) (n : Nm) (v : V) : Dict.put (mapD φ d) n (φ v) = mapD φ (Dict.put d n v) := by
  unfold Dict.put
  rw [drop_map, ← append_map]
  rfl

theorem eval_map (h : Hom I J φ) (σ : Obj V) : ∀ (e : Exp) (f : Frame V),
    eval J (mapO φ σ) e (mapF φ f) = (eval I σ e f).map fun r => (φ r.1, mapF φ r.2)
  | .arg n, f => by
    unfold eval
    rw [show (mapF φ f).loc = mapD φ f.loc from rfl, find_map]
    cases Dict.find f.loc n <;> rfl
  | .const s, f => by
    unfold eval
    rw [← h.const]; rfl
  | .attr n, f => by
    unfold eval
    rw [mapO, find_map]
    cases Dict.find σ n <;> rfl
  | .pop n d, f => by
    unfold eval
    rw [show (mapF φ f).kw = mapD φ f.kw from rfl, find_map]
    cases hf : Dict.find f.kw n with
    | none => exact eval_map h σ d f
    | some v =>
      simp only [Option.map_some]
      rw [drop_map]; rfl
  | .op s a b, f => by
    unfold eval
    rw [eval_map h σ a f]
    rcases eval I σ a f with e | ⟨x, f'⟩
    · rfl
    · simp only [Except.map]
      rw [eval_map h σ b f']
      rcases eval I σ b f' with e | ⟨y, f''⟩
      · rfl
      · simp only [Except.map]
        rw [← h.op]

theorem evalList_map (h : Hom I J φ) (σ : Obj V) : ∀ (es : List Exp) (f : Frame V),
    evalList J (mapO φ σ) es (mapF φ f) = (evalList I σ es f).map fun r => (r.1.map φ, mapF φ r.2)
  | [], f => rfl
  | e :: es, f => by
    unfold evalList
    rw [eval_map h]
    rcases eval I σ e f with e | ⟨x, f'⟩
    · rfl
    · simp only [Except.map]
      rw [evalList_map h σ es f']
      rcases evalList I σ es f' with e | ⟨y, f''⟩ <;> rfl

theorem evalKws_map (h : Hom I J φ) (σ : Obj V) : ∀ (es : List (Nm × Exp)) (f : Frame V),
    evalKws J (mapO φ σ) es (mapF φ f) = (evalKws I σ es f).map fun r => (mapD φ r.1, mapF φ r.2)
  | [], f => rfl
  | (n, e) :: es, f => by
    unfold evalKws
    rw [eval_map h]
    rcases eval I σ e f with e | ⟨x, f'⟩
    · rfl
    · simp only [Except.map]
      rw [evalKws_map h σ es f']
      rcases evalKws I σ es f' with e | ⟨y, f''⟩ <;> rfl

theorem bindArgs_map (h : Hom I J φ) (m : Method) (pos : List V) (kw : Dict V) :
    bindArgs J m (pos.map φ) (mapD φ kw) = (bindArgs I m pos kw).map (mapF φ) := by
  unfold bindArgs
  simp only [List.length_map, find_map, Option.isSome_map]
  have hz : ∀ (l : List Nm) (p : List V), l.zip (p.map φ) = mapD φ (l.zip p) := by
    intro l p
    unfold mapD
    rw [List.zip_map_right]
    rfl
  rw [hz]
  have ha : (mapD φ ((m.params.map (·.1)).zip pos)).any (fun p => (Dict.find kw p.1).isSome) =
      ((m.params.map (·.1)).zip pos).any fun p => (Dict.find kw p.1).isSome := by
    unfold mapD
    rw [List.any_map]
    rfl
  rw [ha]
  by_cases h1 : (decide (m.params.length < pos.length) && !m.star) = true
  · rw [if_pos h1, if_pos h1]; rfl
  · rw [if_neg h1, if_neg h1]
    by_cases h2 : (((m.params.map (·.1)).zip pos).any fun p => (Dict.find kw p.1).isSome) = true
    · rw [if_pos h2, if_pos h2]; rfl
    · rw [if_neg h2, if_neg h2]
      show Except.ok _ = Except.ok _
      congr 1
      unfold mapF
      congr 1
      · rw [← append_map]
        congr 1
        unfold mapD
        rw [List.map_map]
        refine List.map_congr_left fun p _ => ?_
        have key : ∀ o : Option V, (o.map φ).getD (J.const p.2) = φ (o.getD (I.const p.2)) := by
          rintro (_ | v)
          · exact (h.const _).symm
          · rfl
        exact congrArg (Prod.mk p.1) (key _)
      · exact List.map_drop.symm
      · exact filter_map kw fun k => m.params.all fun p => p.1 ≠ k

variable {T : Cls → Class}

/-- `rec'` is the image of `rec`. -/
def RecMap (φ : V → W) (rec : Target → Meth → List V → Dict V → Obj V → Except PyErr (Obj V))
    (rec' : Target → Meth → List W → Dict W → Obj W → Except PyErr (Obj W)) : Prop :=
  ∀ t m pos kw σ, rec' t m (pos.map φ) (mapD φ kw) (mapO φ σ) = (rec t m pos kw σ).map (mapO φ)

theorem step_map (h : Hom I J φ) {rec rec'} (hr : RecMap φ rec rec') (s : Obj V × Frame V) (st : Stmt) :
    step J rec' (mapS φ s) st = (step I rec s st).map (mapS φ) := by
  obtain ⟨σ, f⟩ := s
  cases st with
  | assign n e =>
    unfold step
    simp only [mapS, eval_map h]
    rcases eval I σ e f with e | ⟨x, f'⟩
    · rfl
    · rfl
  | drop n =>
    unfold step
    show Except.ok _ = Except.ok _
    congr 1
    show (_, _) = (_, _)
    congr 1
    show Frame.mk _ _ (Dict.drop (mapD φ f.kw) n) = _
    rw [drop_map]; rfl
  | bind n e =>
    unfold step
    simp only [mapS, eval_map h]
    rcases eval I σ e f with e | ⟨x, f'⟩ <;> rfl
  | call t m pos star kws fwd =>
    unfold step
    simp only [mapS, evalList_map h]
    rcases evalList I σ pos f with e | ⟨ps, f'⟩
    · rfl
    · simp only [Except.map, evalKws_map h]
      rcases evalKws I σ kws f' with e | ⟨ks, f''⟩
      · rfl
      · simp only [Except.map]
        have ha : ((mapD φ ks).any fun k => (Dict.find (mapF φ f'').kw k.1).isSome) = ks.any fun k => (Dict.find f''.kw k.1).isSome := by
          unfold mapD
          rw [List.any_map]
          congr 1
          funext k
          show (Dict.find (mapD φ f''.kw) k.1).isSome = _
          rw [find_map, Option.isSome_map]
        rw [ha]
        by_cases h1 : (fwd && ks.any fun k => (Dict.find f''.kw k.1).isSome) = true
        · rw [if_pos h1, if_pos h1]
        · rw [if_neg h1, if_neg h1]
          have hp : (ps.map φ ++ if star = true then (mapF φ f'').args else []) = (ps ++ if star = true then f''.args else []).map φ := by
            rw [List.map_append]; cases star <;> rfl
          have hk : (mapD φ ks ++ if fwd = true then (mapF φ f'').kw else []) = mapD φ (ks ++ if fwd = true then f''.kw else []) := by
            rw [← append_map]; cases fwd <;> rfl
          rw [hp, hk, hr]
          rcases rec t m _ _ σ with e | σ' <;> rfl

theorem steps_map (h : Hom I J φ) {rec rec'} (hr : RecMap φ rec rec') : ∀ (l : List Stmt) (s : Obj V × Frame V),
    steps J rec' l (mapS φ s) = (steps I rec l s).map (mapS φ)
  | [], s => rfl
  | st :: l, s => by
    unfold steps
    rw [step_map h hr]
    rcases step I rec s st with e | s'
    · rfl
    · simp only [Except.map]
      exact steps_map h hr l s'

/-- A call on the images of values is the image of the call. -/
theorem call_map (h : Hom I J φ) (self : Cls) : ∀ n, RecMap φ (call I T self n) (call J T self n)
  | 0, _, _, _, _, _ => rfl
  | n + 1, t, m, pos, kw, σ => by
    unfold call
    rcases resolve T self _ t with _ | m
    · rfl
    · simp only [bindArgs_map h]
      rcases bindArgs I m pos kw with e | f
      · rfl
      · simp only [Except.map]
        have := steps_map h (call_map h self n) m.body (σ, f)
        rw [show (mapO φ σ, mapF φ f) = mapS φ (σ, f) from rfl, this]
        rcases steps I (call I T self n) m.body (σ, f) with e | s <;> rfl

theorem getStep_map {rec : Target → Except PyErr (Dict V)} {rec'} (hr : ∀ t, rec' t = (rec t).map (mapD φ)) (σ : Obj V) (d : Dict V) (s : GetStmt) :
    getStep rec' (mapO φ σ) (mapD φ d) s = (getStep rec σ d s).map (mapD φ) := by
  cases s with
  | put k a =>
    simp only [getStep]
    rw [mapO, find_map]
    rcases Dict.find σ a with _ | v
    · rfl
    · simp only [Option.map_some, put_map]; rfl
  | merge t =>
    simp only [getStep]
    rw [hr]
    rcases rec t with e | d'
    · rfl
    · simp only [Except.map]
      congr 1
      induction d' generalizing d with
      | nil => rfl
      | cons e d' ih =>
        show List.foldl _ (Dict.put (mapD φ d) e.1 (φ e.2)) (mapD φ d') = _
        rw [put_map, ih]; rfl
  | remove k =>
    simp only [getStep]
    rw [drop_map]; rfl
  | rename k k' =>
    simp only [getStep]
    rw [find_map]
    rcases Dict.find d k with _ | v
    · simp only [Option.map_none]
      rw [mapO, find_map]
      rcases Dict.find σ k with _ | v
      · rfl
      · simp only [Option.map_some, put_map]; rfl
    · simp only [Option.map_some, drop_map, put_map]; rfl

theorem getSteps_map {rec : Target → Except PyErr (Dict V)} {rec'} (hr : ∀ t, rec' t = (rec t).map (mapD φ)) (σ : Obj V) :
    ∀ (l : List GetStmt) (d : Dict V), getSteps rec' (mapO φ σ) l (mapD φ d) = (getSteps rec σ l d).map (mapD φ)
  | [], d => rfl
  | s :: l, d => by
    unfold getSteps
    rw [getStep_map hr]
    rcases getStep rec σ d s with e | d'
    · rfl
    · simp only [Except.map]
      exact getSteps_map hr σ l d'

theorem getCall_map (self : Cls) (σ : Obj V) : ∀ n t, getCall T self (mapO φ σ) n t = (getCall T self σ n t).map (mapD φ)
  | 0, _ => rfl
  | n + 1, t => by
    unfold getCall
    rcases resolve T self _ t with _ | l
    · rfl
    · exact getSteps_map (getCall_map self σ n) σ l []

end

/-- Symbolic values: the values of arguments, the values of the attributes of an object, constants, results of operations. -/
inductive Val | sym (n : Nm) | old (n : Nm) | const (s : Tok) | op (s : Tok) (a b : Val)
  deriving DecidableEq

/-- Symbols are interpreted by themselves. -/
def free : Interp Val := ⟨.const, .op⟩

/-- The value of a symbolic value. -/
def Val.value {V : Type*} (I : Interp V) (x y : Nm → V) : Val → V
  | .sym n => x n
  | .old n => y n
  | .const s => I.const s
  | .op s a b => I.op s (a.value I x y) (b.value I x y)

theorem hom_value {V : Type*} (I : Interp V) (x y : Nm → V) : Hom free I (Val.value I x y) := ⟨fun _ => rfl, fun _ _ _ => rfl⟩

/-- The names of the parameters of the constructors of a class and its bases. -/
def ctorNames (c : Cls) : List Nm :=
  ((mro table 12 c).flatMap fun b => match (table b).init with | some m => m.params.map (·.1) | none => []).eraseDups

/-- The constructor takes the keyword `k` and stores its value in the attribute `a`. -/
def Stores (c : Cls) (k a : Nm) : Prop :=
  ∀ (V : Type) (I : Interp V) (x : V), ∃ σ, new I table c [(k, x)] = .ok σ ∧ Dict.find σ a = some x

/-- The attributes in which the constructor stores the value of a keyword. -/
def storedIn (c : Cls) (k : Nm) : List Nm := match new free table c [(k, .sym k)] with
  | .ok σ => (σ.map (·.1)).filter fun a => Dict.find σ a = some (.sym k)
  | .error _ => []

/-- The keywords of the constructor of a class: the parameters that it accepts and stores. -/
def keywords (c : Cls) : List Nm := (ctorNames c).filter fun k => !(storedIn c k).isEmpty

/-- Keyword arguments. -/
def args {V : Type} (ks : List Nm) (x : Nm → V) : Dict V := ks.map fun k => (k, x k)

/-- Parameters survive `a.set_parameters(**a.get_parameters())`: for an object constructed with arbitrary values of all its parameters, or with
defaults, the calls succeed and change no attribute. -/
def RoundTrip (c : Cls) : Prop := ∀ ks, ks = keywords c ∨ ks = [] → ∀ (V : Type) (I : Interp V) (x : Nm → V), ∃ σ d σ',
  new I table c (args ks x) = .ok σ ∧ getParams table c σ = .ok d ∧ setParams I table c d σ = .ok σ' ∧ ∀ a, Dict.find σ' a = Dict.find σ a

/-- `a.set_parameters(**kw)` gives the parameters of `c(**kw)`, whatever the attributes of `a` were: with all keywords, with none, and with any
single one. -/
def Agree (c : Cls) : Prop := ∀ ks, ks = keywords c ∨ ks = [] ∨ (∃ k ∈ keywords c, ks = [k]) →
  ∀ (V : Type) (I : Interp V) (x y : Nm → V), ∃ σ σ',
  new I table c (args ks x) = .ok σ ∧ setParams I table c (args ks x) (args Nm.all y) = .ok σ' ∧
  ∀ k ∈ keywords c, ∀ a, Stores c k a → Dict.find σ' a = Dict.find σ a

/-! ### Decision by a run on symbols -/

/-- `get_parameters` shows the value of the keyword `k`, whatever values were given to the constructor. -/
def Reports (c : Cls) (k : Nm) : Prop := ∀ (V : Type) (I : Interp V) (x : Nm → V), ∃ σ d,
  new I table c (args (keywords c) x) = .ok σ ∧ getParams table c σ = .ok d ∧ Dict.find d k = some (x k)

/-- Whether two objects have the same attributes. -/
def same (σ σ' : Obj Val) : Bool := (σ ++ σ').all fun e => Dict.find σ' e.1 = Dict.find σ e.1

def tripB (c : Cls) (ks : List Nm) : Bool := match new free table c (args ks .sym) with
  | .error _ => false
  | .ok σ => match getParams table c σ with
    | .error _ => false
    | .ok d => match setParams free table c d σ with
      | .error _ => false
      | .ok σ' => same σ σ'

def agreeB (c : Cls) (ks : List Nm) : Bool := match new free table c (args ks .sym) with
  | .error _ => false
  | .ok σ => match setParams free table c (args ks .sym) (args Nm.all .old) with
    | .error _ => false
    | .ok σ' => (keywords c).all fun k => (storedIn c k).all fun a => Dict.find σ' a = Dict.find σ a

theorem find_none {V : Type} {d : Dict V} {a : Nm} (h : ∀ e ∈ d, e.1 ≠ a) : Dict.find d a = none := by
  induction d with
  | nil => rfl
  | cons e d ih =>
    obtain ⟨k, v⟩ := e
    show (if k = a then some v else Dict.find d a) = none
    rw [if_neg (h (k, v) List.mem_cons_self), ih fun e he => h e (List.mem_cons_of_mem _ he)]

theorem mem_of_find {V : Type} {d : Dict V} {a : Nm} {v : V} (h : Dict.find d a = some v) : (a, v) ∈ d := by
  induction d with
  | nil => cases h
  | cons e d ih =>
    obtain ⟨k, w⟩ := e
    change (if k = a then some w else Dict.find d a) = some v at h
    by_cases hk : k = a
    · rw [if_pos hk] at h
      obtain rfl := Option.some.inj h
      rw [hk]; exact List.mem_cons_self
    · rw [if_neg hk] at h
      exact List.mem_cons_of_mem _ (ih h)

theorem same_iff {σ σ' : Obj Val} : same σ σ' = true ↔ ∀ a, Dict.find σ' a = Dict.find σ a := by
  unfold same
  rw [List.all_eq_true]
  constructor
  · intro h a
    by_cases ha : ∃ e ∈ σ ++ σ', e.1 = a
    · obtain ⟨e, he, rfl⟩ := ha
      exact of_decide_eq_true (h e he)
    · push Not at ha
      rw [find_none fun e he => ha e (List.mem_append_right _ he), find_none fun e he => ha e (List.mem_append_left _ he)]
  · exact fun h e _ => decide_eq_true (h e.1)

section
variable {V : Type} (I : Interp V) (x y : Nm → V)

theorem args_value (ks : List Nm) : mapD (Val.value I x y) (args ks .sym) = args ks x := by
  unfold mapD args; rw [List.map_map]; rfl

theorem args_old (ks : List Nm) : mapD (Val.value I x y) (args ks .old) = args ks y := by
  unfold mapD args; rw [List.map_map]; rfl

theorem new_value (c : Cls) (kw : Dict Val) :
    new I table c (mapD (Val.value I x y) kw) = (new free table c kw).map (mapD (Val.value I x y)) :=
  call_map (hom_value I x y) c 12 .own .init [] kw []

theorem set_value (c : Cls) (kw : Dict Val) (σ : Obj Val) :
    setParams I table c (mapD (Val.value I x y) kw) (mapD (Val.value I x y) σ) = (setParams free table c kw σ).map (mapD (Val.value I x y)) :=
  call_map (hom_value I x y) c 12 .own .set [] kw σ

theorem get_value (c : Cls) (σ : Obj Val) :
    getParams table c (mapD (Val.value I x y) σ) = (getParams table c σ).map (mapD (Val.value I x y)) :=
  getCall_map c σ 12 .own

end

theorem stores_iff {c : Cls} {k a : Nm} : Stores c k a ↔ a ∈ storedIn c k := by
  unfold storedIn
  constructor
  · intro h
    obtain ⟨σ, h1, h2⟩ := h Val free (.sym k)
    rw [h1]
    exact List.mem_filter.2 ⟨List.mem_map.2 ⟨_, mem_of_find h2, rfl⟩, decide_eq_true h2⟩
  · intro h V I x
    have hn := new_value I (fun _ => x) (fun _ => x) c [(k, .sym k)]
    generalize hr : new free table c [(k, Val.sym k)] = r at h hn
    rcases r with e | σ
    · cases h
    · refine ⟨_, hn, ?_⟩
      rw [find_map, of_decide_eq_true (List.mem_filter.1 h).2]
      rfl

/-- The keywords are the parameters that the constructor takes and stores. -/
theorem mem_keywords {c : Cls} {k : Nm} : k ∈ keywords c ↔ k ∈ ctorNames c ∧ ∃ a, Stores c k a := by
  unfold keywords
  rw [List.mem_filter]
  refine and_congr_right fun _ => ?_
  simp only [stores_iff]
  cases storedIn c k <;> simp

/-- The run on symbols that decides `Reports`. -/
def shown (c : Cls) : Option (Dict Val) := match new free table c (args (keywords c) .sym) with
  | .error _ => none
  | .ok σ => match getParams table c σ with
    | .error _ => none
    | .ok d => some d

theorem shown_value {c : Cls} {d : Dict Val} (h : shown c = some d) (I : Interp V) (x : Nm → V) : ∃ σ d',
    new I table c (args (keywords c) x) = .ok σ ∧ getParams table c σ = .ok d' ∧ ∀ k, Dict.find d' k = (Dict.find d k).map (Val.value I x x) := by
  unfold shown at h
  have h1 := new_value I x x c (args (keywords c) .sym)
  rw [args_value] at h1
  generalize new free table c (args (keywords c) .sym) = r1 at h h1
  rcases r1 with e | σ
  · cases h
  · have h2 := get_value I x x c σ
    simp only at h
    generalize getParams table c σ = r2 at h h2
    rcases r2 with e | d
    · cases h
    · cases h
      exact ⟨_, _, h1, h2, fun k => find_map _ _⟩

theorem reports_iff {c : Cls} {k : Nm} : Reports c k ↔ (shown c).bind (fun d => Dict.find d k) = some (.sym k) := by
  constructor
  · intro h
    obtain ⟨σ, d, h1, h2, h3⟩ := h Val free .sym
    unfold shown
    rw [h1]
    simp only
    rw [h2]
    exact h3
  · intro h V I x
    rw [Option.bind_eq_some_iff] at h
    obtain ⟨d, h1, h2⟩ := h
    obtain ⟨σ, d', h3, h4, h5⟩ := shown_value h1 I x
    exact ⟨σ, d', h3, h4, by rw [h5, h2]; rfl⟩

theorem roundTrip_iff {c : Cls} : RoundTrip c ↔ tripB c (keywords c) = true ∧ tripB c [] = true := by
  have key : ∀ ks, tripB c ks = true ↔ ∀ (V : Type) (I : Interp V) (x : Nm → V), ∃ σ d σ',
      new I table c (args ks x) = .ok σ ∧ getParams table c σ = .ok d ∧ setParams I table c d σ = .ok σ' ∧
        ∀ a, Dict.find σ' a = Dict.find σ a := by
    intro ks
    unfold tripB
    constructor
    · intro h V I x
      have h1 := new_value I x x c (args ks .sym)
      rw [args_value] at h1
      generalize new free table c (args ks .sym) = r1 at h h1
      rcases r1 with e | σ
      · cases h
      · have h2 := get_value I x x c σ
        simp only at h
        generalize getParams table c σ = r2 at h h2
        rcases r2 with e | d
        · cases h
        · have h3 := set_value I x x c d σ
          simp only at h
          generalize setParams free table c d σ = r3 at h h3
          rcases r3 with e | σ'
          · cases h
          · refine ⟨_, _, _, h1, h2, h3, fun a => ?_⟩
            rw [find_map, find_map, same_iff.1 h a]
    · intro h
      obtain ⟨σ, d, σ', h1, h2, h3, h4⟩ := h Val free .sym
      rw [h1]
      simp only
      rw [h2]
      simp only
      rw [h3]
      exact same_iff.2 h4
  constructor
  · exact fun h => ⟨(key _).2 (h _ (.inl rfl)), (key _).2 (h _ (.inr rfl))⟩
  · rintro ⟨h1, h2⟩ ks (rfl | rfl)
    · exact (key _).1 h1
    · exact (key _).1 h2

theorem agree_iff {c : Cls} :
    Agree c ↔ agreeB c (keywords c) = true ∧ agreeB c [] = true ∧ (keywords c).all (fun k => agreeB c [k]) = true := by
  have key : ∀ ks, agreeB c ks = true ↔ ∀ (V : Type) (I : Interp V) (x y : Nm → V), ∃ σ σ',
      new I table c (args ks x) = .ok σ ∧ setParams I table c (args ks x) (args Nm.all y) = .ok σ' ∧
      ∀ k ∈ keywords c, ∀ a, Stores c k a → Dict.find σ' a = Dict.find σ a := by
    intro ks
    unfold agreeB
    constructor
    · intro h V I x y
      have h1 := new_value I x y c (args ks .sym)
      have h2 := set_value I x y c (args ks .sym) (args Nm.all .old)
      rw [args_value] at h1 h2
      rw [args_old] at h2
      generalize new free table c (args ks .sym) = r1 at h h1
      rcases r1 with e | σ
      · cases h
      · simp only at h
        generalize setParams free table c (args ks .sym) (args Nm.all .old) = r2 at h h2
        rcases r2 with e | σ'
        · cases h
        · refine ⟨_, _, h1, h2, fun k hk a ha => ?_⟩
          have := List.all_eq_true.1 (List.all_eq_true.1 h k hk) a (stores_iff.1 ha)
          rw [find_map, find_map, of_decide_eq_true this]
    · intro h
      obtain ⟨σ, σ', h1, h2, h3⟩ := h Val free .sym .old
      rw [h1]
      simp only
      rw [h2]
      exact List.all_eq_true.2 fun k hk => List.all_eq_true.2 fun a ha => decide_eq_true (h3 k hk a (stores_iff.2 ha))
  constructor
  · exact fun h => ⟨(key _).2 (h _ (.inl rfl)), (key _).2 (h _ (.inr (.inl rfl))),
      List.all_eq_true.2 fun k hk => (key _).2 (h _ (.inr (.inr ⟨k, hk, rfl⟩)))⟩
  · rintro ⟨h1, h2, h3⟩ ks (rfl | rfl | ⟨k, hk, rfl⟩)
    · exact (key _).1 h1
    · exact (key _).1 h2
    · exact (key _).1 (List.all_eq_true.1 h3 k hk)

end NiaPy.Params
